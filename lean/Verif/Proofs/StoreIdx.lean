import Verif.Proofs.StoreSafe
import Verif.Proofs.Loop
/-! Element references by position. -/
namespace Snek.Store
open Spec

variable {E : Env}

theorem soff_denotes {u : BitVec 32} {k : Int} (h : Denotes u k) (h1 : -(2 ^ (E.A.offBits - 1)) ≤ k) (h2 : k < 2 ^ (E.A.offBits - 1)) :
    soff E (.num u) = (k, false) := by
  have ht : ftrunc u = k := by unfold ftrunc; rw [h.val]; exact Int.mul_tdiv_cancel _ (by decide)
  simp only [soff]
  unfold fToInt
  rw [ht, if_pos ⟨h.fin, h1, h2⟩]
  rfl

/-- The position `_snek_list_ref` and `snek_string_get` compute. -/
def pos (E : Env) (size : Nat) (so : Int) : Nat :=
  if so < 0 then E.off (size + (2 ^ E.A.offBits - E.off (-so).toNat)) else so.toNat

theorem pos_eq {size : Nat} {k : Int} (hA : E.A.Valid) (hs : size < 2 ^ E.A.offBits) (h1 : -(2 ^ (E.A.offBits - 1)) ≤ k) :
    (0 ≤ k → pos E size k = k.toNat) ∧ (k < 0 → 0 ≤ size + k → pos E size k = (size + k).toNat) ∧
    (k < 0 → size + k < 0 → size ≤ pos E size k) := by
  have hP := pow_split hA
  have hPn : (2 : Int) ^ E.A.offBits = ((2 ^ E.A.offBits : Nat) : Int) := by push_cast; rfl
  rw [hPn] at hP
  unfold pos Env.off
  generalize 2 ^ E.A.offBits = N at *
  generalize (2 : Int) ^ (E.A.offBits - 1) = H at *
  refine ⟨fun h => by rw [if_neg (by omega)], fun h h2 => ?_, fun h h2 => ?_⟩
  · rw [if_pos h, Nat.mod_eq_of_lt (a := (-k).toNat) (by omega)]
    have : size + (N - (-k).toNat) = (size + k).toNat + N := by omega
    rw [this, Nat.add_mod_right, Nat.mod_eq_of_lt (by omega)]
  · rw [if_pos h, Nat.mod_eq_of_lt (a := (-k).toNat) (by omega), Nat.mod_eq_of_lt (by omega)]
    omega

/-- Position in range: the element the index names. -/
theorem elemAt_pos {α : Type} (l : List α) {k : Int} (hA : E.A.Valid) (hs : l.length < 2 ^ E.A.offBits) (h1 : -(2 ^ (E.A.offBits - 1)) ≤ k) :
    (pos E l.length k < l.length → elemAt l k = l[pos E l.length k]? ∧ ∀ v, setAt l k v = l.set (pos E l.length k) v) ∧
    (l.length ≤ pos E l.length k → elemAt l k = none) := by
  obtain ⟨p1, p2, p3⟩ := pos_eq hA hs h1
  unfold elemAt setAt
  by_cases h0 : 0 ≤ k
  · rw [if_pos h0, if_pos h0, p1 h0]
    exact ⟨fun _ => ⟨rfl, fun _ => rfl⟩, fun h => List.getElem?_eq_none h⟩
  · rw [if_neg h0, if_neg h0]
    by_cases h2 : 0 ≤ (l.length : Int) + k
    · rw [if_pos h2, p2 (by omega) h2]
      exact ⟨fun _ => ⟨rfl, fun _ => rfl⟩, fun h => List.getElem?_eq_none h⟩
    · rw [if_neg h2]
      have := p3 (by omega) (by omega)
      exact ⟨fun h => by omega, fun _ => rfl⟩

/-- Referring to an element of a list or tuple. -/
theorem ref_seq {s : S} {i : Nat} {o : LObj} (h : s.lst i = some o) (ht : o.type ≠ .dict) (p : Val) (add : Bool) :
    ref E s i p add =
      let s' := if (soff E p).2 then s.fail else s
      some (if o.size ≤ pos E o.size (soff E p).1 then (none, s'.fail) else (some (pos E o.size (soff E p).1), s')) := by
  simp only [ref, h, Option.bind_eq_bind, Option.bind_some, if_neg ht, Option.pure_def, pos]
  split <;> (split <;> rfl)

end Snek.Store
