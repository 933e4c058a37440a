import Verif.Props.C59
import Verif.Proofs.Approx
import Verif.Proofs.Number
import Verif.Spec.Real
import Mathlib.Tactic.Linarith
import Mathlib.Tactic.NormNum
import Mathlib.Tactic.Ring
import Mathlib.Tactic.FieldSimp
import Mathlib.Tactic.Positivity
/-!
# Rounding errors as real numbers

An operation differs from the exact result by at most 2^-24 of it and 2^-150.
-/
namespace Snek
open Spec

theorem mag_err (n d : Nat) (hd : 0 < d) (ho : roundMag n d < 0x7f800000) :
    2 ^ 24 * ((fmag (roundMag n d) * d : Int) - n).natAbs ≤ 2 ^ 23 * d + n := by
  have ho' : rexp n d * 2 ^ 23 + rne n (d * 2 ^ rexp n d) ≤ 0x7f800000 := by rw [roundMag_eq] at ho; omega
  have hf := fmag_roundMag n d hd ho'
  obtain ⟨h1, h2⟩ := rexp_spec n d hd
  rw [hf]
  generalize rexp n d = e at *
  have hD : 0 < d * 2 ^ e := Nat.mul_pos hd (Nat.pow_pos (by decide))
  have e1 : ((rne n (d * 2 ^ e) * 2 ^ e : Nat) * d : Int) = (rne n (d * 2 ^ e) * (d * 2 ^ e) : Nat) := by push_cast; ring
  have key : 2 * ((rne n (d * 2 ^ e) * (d * 2 ^ e) : Nat) - n : Int).natAbs ≤ d * 2 ^ e := by
    have hq := Nat.div_add_mod n (d * 2 ^ e)
    have hl := Nat.mod_lt n hD
    unfold rne
    generalize d * 2 ^ e = D at *
    split
    · rename_i hc
      rw [Nat.mul_comm (n / D) D]; omega
    · rename_i hc
      rw [Nat.add_mul, Nat.one_mul, Nat.mul_comm (n / D) D]; omega
  rw [e1]
  generalize ((rne n (d * 2 ^ e) * (d * 2 ^ e) : Nat) - n : Int).natAbs = x at *
  rcases h1 with h | h
  · rw [h] at key; omega
  · generalize d * 2 ^ e = D at *
    omega

theorem nearest_err {w : BitVec 32} {n : Int} {d : Nat} (hd : 0 < d) (h : Nearest w n d) (ho : roundMag n.natAbs d < 0x7f800000) :
    2 ^ 24 * (f32val w * d - n).natAbs ≤ 2 ^ 23 * d + n.natAbs := by
  refine Nat.le_trans (Nat.mul_le_mul_left _ (h.2 (fmk (decide (n < 0)) (roundMag n.natAbs d)) (by rw [(fmk_fin _ _ ho).1]; exact ho)).1) ?_
  have m := mag_err n.natAbs d hd ho
  rw [fval_eq_spec, fval_fmk _ _ (Nat.lt_trans ho (by decide))]
  by_cases hn : n < 0
  · rw [decide_eq_true hn, if_pos rfl]
    have e : (-(fmag (roundMag n.natAbs d) : Int) * d - n).natAbs = ((fmag (roundMag n.natAbs d) * d : Int) - n.natAbs).natAbs := by
      rw [show (n.natAbs : Int) = -n by omega, Int.neg_mul]; omega
    rw [e]; exact m
  · rw [decide_eq_false hn, if_neg (by decide)]
    rw [show (n.natAbs : Int) = n by omega] at m
    exact m

/-- Rounding, in units. -/
theorem rounded_err {w : BitVec 32} {n : Int} {d : Nat} (hd : 0 < d) (h : Rounded w n d) (hn : |(n : ℝ)| ≤ 2 ^ 276 * d) :
    FinNum w ∧ |(f32val w : ℝ) - n / d| ≤ |(n : ℝ) / d| / 2 ^ 24 + 1 / 2 := by
  have hN : n.natAbs ≤ 2 ^ 276 * d := by
    have : ((n.natAbs : ℕ) : ℝ) ≤ ((2 ^ 276 * d : ℕ) : ℝ) := by rw [Nat.cast_natAbs]; push_cast; exact hn
    exact_mod_cast this
  have hlt : 2 * n.natAbs < ((2 ^ 24 - 1) * 2 ^ 253 + 2 ^ 277) * d := by
    have : 2 * (2 ^ 276 * d) < ((2 ^ 24 - 1) * 2 ^ 253 + 2 ^ 277) * d := by
      rw [← Nat.mul_assoc]; exact Nat.mul_lt_mul_of_pos_right (by decide +kernel) hd
    exact Nat.lt_of_le_of_lt (Nat.mul_le_mul_left 2 hN) this
  have hr := h.1 hlt
  refine ⟨hr.1, ?_⟩
  have m := nearest_err hd hr ((roundMag_over _ _ hd).1 hlt)
  have m' : (2 : ℝ) ^ 24 * |(f32val w : ℝ) * d - n| ≤ 2 ^ 23 * d + |(n : ℝ)| := by
    have : ((2 ^ 24 * (f32val w * d - n).natAbs : ℕ) : ℝ) ≤ ((2 ^ 23 * d + n.natAbs : ℕ) : ℝ) := by exact_mod_cast m
    simpa only [Nat.cast_mul, Nat.cast_add, Nat.cast_natAbs, Int.cast_abs, Int.cast_sub, Int.cast_mul, Nat.cast_pow, Nat.cast_ofNat, Int.cast_natCast] using this
  have hd' : (0 : ℝ) < d := by exact_mod_cast hd
  have e : (f32val w : ℝ) - n / d = ((f32val w : ℝ) * d - n) / d := by field_simp
  rw [e, abs_div, abs_div, abs_of_pos hd', div_le_iff₀ hd']
  have e2 : (|(n : ℝ)| / d / 2 ^ 24 + 1 / 2) * d = (|(n : ℝ)| + 2 ^ 23 * d) / 2 ^ 24 := by field_simp
  rw [e2, le_div_iff₀ (by positivity)]
  linarith

/-- The error of a rounded result. -/
theorem real_err {w : BitVec 32} {n : Int} {d : Nat} {x : ℝ} (hd : 0 < d) (h : Rounded w n d) (hx : x = n / d / 2 ^ 149) (hn : |x| ≤ 2 ^ 127) :
    FinNum w ∧ |real w - x| ≤ |x| / 2 ^ 24 + 1 / 2 ^ 150 := by
  have hd' : (0 : ℝ) < d := by exact_mod_cast hd
  have hb : |(n : ℝ)| ≤ 2 ^ 276 * d := by
    rw [hx, abs_div, abs_div, abs_of_pos hd', abs_of_pos (by positivity : (0:ℝ) < 2 ^ 149), div_le_iff₀ (by positivity), div_le_iff₀ hd'] at hn
    have : (2 : ℝ) ^ 127 * 2 ^ 149 = 2 ^ 276 := by rw [← pow_add]
    rwa [this] at hn
  obtain ⟨h1, h2⟩ := rounded_err hd h hb
  refine ⟨h1, ?_⟩
  have e : real w - x = (f32val w - n / d) / 2 ^ 149 := by rw [hx]; unfold real; ring
  rw [e, hx, abs_div, abs_div (n / d : ℝ), abs_of_pos (by positivity : (0:ℝ) < 2 ^ 149), div_le_iff₀ (by positivity)]
  calc _ ≤ _ := h2
    _ = _ := by
      have : (1 / 2 ^ 150 : ℝ) * 2 ^ 149 = 1 / 2 := by norm_num
      rw [add_mul, this]
      congr 1
      field_simp

theorem fmul_rounded (a b : BitVec 32) (ha : FinNum a) (hb : FinNum b) : Rounded (fmul a b) (f32val a * f32val b) (2 ^ 149) := by
  obtain ⟨a1, a2, a3⟩ := fin_flags ha
  obtain ⟨b1, b2, b3⟩ := fin_flags hb
  unfold fmul
  simp only [a1, b1, a2, b2, Bool.or_self, Bool.false_eq_true, if_false, fval_eq_spec]
  by_cases h0 : fval a * fval b = 0
  · have hz : (fval a).natAbs * (fval b).natAbs = 0 := by
      rw [← Int.natAbs_mul, h0]; rfl
    rw [hz, roundMag_zero, h0]
    exact rounded_zero _ _ (by decide)
  · have := rounded_fmk (fneg a != fneg b) ((fval a).natAbs * (fval b).natAbs) (2 ^ 149) (by decide)
      (.inl (by rw [← Int.natAbs_mul]; omega))
    rw [sign_mul _ _ _ _ (fneg_val a) (fneg_val b) h0] at this
    exact this

theorem add_err {a b : BitVec 32} (ha : FinNum a) (hb : FinNum b) (h : |real a + real b| ≤ 2 ^ 127) :
    FinNum (fadd a b) ∧ |real (fadd a b) - (real a + real b)| ≤ |real a + real b| / 2 ^ 24 + 1 / 2 ^ 150 := by
  refine real_err (by decide) (fadd_rounded a b ha hb) ?_ h
  unfold real; push_cast; ring

theorem real_neg {a : BitVec 32} (ha : FinNum a) : FinNum (fneg1 a) ∧ real (fneg1 a) = -real a := by
  refine ⟨fneg1_fin ha, ?_⟩
  unfold real
  rw [fval_eq_spec (fneg1 a), fval_fneg1, ← fval_eq_spec a]
  push_cast; ring

theorem sub_err {a b : BitVec 32} (ha : FinNum a) (hb : FinNum b) (h : |real a - real b| ≤ 2 ^ 127) :
    FinNum (fsub a b) ∧ |real (fsub a b) - (real a - real b)| ≤ |real a - real b| / 2 ^ 24 + 1 / 2 ^ 150 := by
  have e := add_err ha (real_neg hb).1 (by rw [(real_neg hb).2, ← sub_eq_add_neg]; exact h)
  rw [(real_neg hb).2, ← sub_eq_add_neg] at e
  exact e

theorem mul_err {a b : BitVec 32} (ha : FinNum a) (hb : FinNum b) (h : |real a * real b| ≤ 2 ^ 127) :
    FinNum (fmul a b) ∧ |real (fmul a b) - real a * real b| ≤ |real a * real b| / 2 ^ 24 + 1 / 2 ^ 150 := by
  refine real_err (by decide) (fmul_rounded a b ha hb) ?_ h
  unfold real; push_cast; field_simp; norm_num; ring

theorem div_err {a b : BitVec 32} (ha : FinNum a) (hb : FinNum b) (h0 : real b ≠ 0) (h : |real a / real b| ≤ 2 ^ 127) :
    FinNum (fdiv a b) ∧ |real (fdiv a b) - real a / real b| ≤ |real a / real b| / 2 ^ 24 + 1 / 2 ^ 150 := by
  have hb0 : f32val b ≠ 0 := by
    intro e; apply h0; unfold real; rw [e]; simp
  refine real_err (Int.natAbs_pos.2 hb0) (fdiv_rounded a b ha hb (by rw [← fval_eq_spec]; exact hb0)) ?_ h
  unfold real
  have hb' : (f32val b : ℝ) ≠ 0 := by exact_mod_cast hb0
  rw [Nat.cast_natAbs]
  rcases lt_or_gt_of_ne hb0 with hs | hs
  · rw [Int.sign_eq_neg_one_of_neg hs, abs_of_neg hs]
    push_cast; field_simp; norm_num
  · rw [Int.sign_eq_one_of_pos hs, abs_of_pos hs]
    push_cast; field_simp; norm_num

theorem real_int {i : Int} (h : Int24 i) : FinNum (intToF i) ∧ real (intToF i) = i := by
  obtain ⟨h1, h2⟩ := intToF_denotes h
  refine ⟨h1, ?_⟩
  unfold real; rw [h2]; push_cast; field_simp; norm_num

end Snek
