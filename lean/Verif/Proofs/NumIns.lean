import Verif.Model.Vm
import Verif.Proofs.Number
/-! # Number instructions -/
namespace Snek.Vm
open Spec

theorem fkey_inj {a b : BitVec 32} (h : fkey a = fkey b) (hn : fkey a ≠ 0) : a = b := by
  unfold fkey at *
  apply BitVec.eq_of_toNat_eq
  have ha := a.isLt
  have hb := b.isLt
  split at h <;> split at h <;> split at hn <;> omega

theorem fkey_zero {a : BitVec 32} (h : fkey a = 0) : a = 0 ∨ a = 0x80000000#32 := by
  unfold fkey at h
  have ha := a.isLt
  by_cases h0 : a.toNat = 0
  · left; apply BitVec.eq_of_toNat_eq; simpa using h0
  · right; apply BitVec.eq_of_toNat_eq; split at h
    · omega
    · simp; omega

/-- A small integer equal to a literal is the literal. -/
theorem feq_small (z : BitVec 8) (u : BitVec 32) (hu : u ≠ 0x80000000#32) (h : feq (intToF z.toInt) u = true) :
    intToF z.toInt = u := by
  unfold feq at h
  simp only [Bool.and_eq_true, beq_iff_eq] at h
  by_cases hk : fkey (intToF z.toInt) = 0
  · have h1 : u = 0 := (fkey_zero (h.2 ▸ hk)).resolve_right hu
    by_cases hz : z.toInt = 0
    · rw [hz, h1]; rfl
    · exfalso
      have hz2 : Int24 z.toInt := by
        have := z.toInt_lt; have := z.le_toInt
        unfold Int24; omega
      have hd := (intToF_denotes hz2).val
      have hv : fval (intToF z.toInt) = 0 := by
        rcases fkey_zero hk with e | e <;> rw [e] <;> decide
      rw [hv] at hd
      exact hz ((scale_zero _).1 hd.symm)
  · exact fkey_inj h.2 hk

variable {σ : Type}

/-- Executing a number instruction loads exactly the literal. -/
theorem exec_num (P : Prim σ) (conv : BitVec 32 → BitVec 8) (u : BitVec 32) (hu : u ≠ 0x80000000#32) (p : Bool) (ip : Nat)
    (s : Vm σ) : exec1 P (numIns conv u) p ip s = .ok { s with acc := .num u } p := by
  have key : ∀ z : BitVec 8, exec1 P (if feq (intToF z.toInt) u then .int (UInt8.ofBitVec z) else .num u) p ip s =
      .ok { s with acc := .num u } p := by
    intro z
    split
    · rename_i h
      have := feq_small _ _ hu h
      simp only [exec1, intVal]
      rw [this]
    · rfl
  exact key _

theorem intToF_ne_negz (x : Nat) (h : x < 2 ^ 15) : intToF x ≠ 0x80000000#32 := by
  by_cases hx : x = 0
  · subst hx; decide
  · intro e
    have hz : Int24 (x : Int) := by unfold Int24; omega
    have hd := (intToF_denotes hz).val
    rw [e] at hd
    have : fval 0x80000000#32 = 0 := by decide
    rw [this] at hd
    have := (scale_zero _).1 hd.symm
    omega

theorem toSoff_int (W : Nat) (hW : 2 ≤ W) (x : Nat) (h : x < 2 ^ 15) : (toSoff W (intToF x)).toNat = x := by
  have hz : Int24 (x : Int) := by unfold Int24; omega
  have hd := intToF_denotes hz
  have ht : ftrunc (intToF x) = x := by
    unfold ftrunc; rw [hd.val]; exact Int.mul_tdiv_cancel _ (by decide)
  have hp : (2 : Int) ^ 15 ≤ 2 ^ (8 * W - 1) := by
    have : (2 : Nat) ^ 15 ≤ 2 ^ (8 * W - 1) := Nat.pow_le_pow_right (by omega) (by omega)
    exact_mod_cast this
  have hp0 : (0 : Int) < 2 ^ (8 * W - 1) := by have : (0 : Int) < 2 ^ 15 := by decide
                                               omega
  unfold toSoff fToInt
  rw [ht, if_pos ⟨hd.fin, by omega, by omega⟩]
  simp

end Snek.Vm
