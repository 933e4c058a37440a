import Verif.Proofs.Cmp
/-!
# C55 Truth values
-/
namespace Spec
open Snek
/-- Non-zero numbers (a NaN is not zero) and non-empty containers count as true, and nothing else. -/
inductive Truthy : Tree → Prop
  | num (u) : isNanF u = true ∨ f32val u ≠ 0 → Truthy (.num u)
  | str (c s) : Truthy (.str (c :: s))
  | list (t x l) : Truthy (.list t (x :: l))
end Spec
namespace Snek
open Spec

/-- `snek_poly_true` decides exactly the truthy values. -/
theorem C55_truth (a : Tree) : a.truth = true ↔ Truthy a := by
  cases a with
  | num u =>
    have h0 : fkey u = 0 ↔ f32val u = 0 := by
      have := fkey_val_eq u 0#32
      have e1 : fkey 0#32 = 0 := by decide
      have e2 : f32val 0#32 = 0 := by decide
      rw [e1, e2] at this; exact this
    simp only [Tree.truth, Bool.or_eq_true, decide_eq_true_eq, ne_eq, h0]
    constructor
    · intro h; exact .num u h
    · intro h; cases h with | num _ h => exact h
  | str s =>
    cases s with
    | nil => simp [Tree.truth]; intro h; cases h
    | cons c s => simp [Tree.truth]; exact .str c s
  | list t l =>
    cases l with
    | nil => simp [Tree.truth]; intro h; cases h
    | cons x l => simp [Tree.truth]; exact .list t x l
  | func o => simp [Tree.truth]; intro h; cases h
  | builtin o => simp [Tree.truth]; intro h; cases h

/-- `None` is false, both zeros are false, every other number is true. -/
theorem C55_none_and_zero : Tree.none.truth = false ∧ ∀ u : BitVec 32, (Tree.num u).truth = false ↔ u = 0#32 ∨ u = 0x80000000#32 := by
  refine ⟨rfl, ?_⟩
  intro u
  have hz : fkey u = 0 ↔ u.toNat = 0 ∨ u.toNat = 2 ^ 31 := by
    have := u.isLt; unfold fkey; split <;> omega
  have e : (u = 0#32 ∨ u = 0x80000000#32) ↔ fkey u = 0 := by
    rw [hz, ← BitVec.toNat_inj, ← BitVec.toNat_inj]; simp
  rw [e]
  simp only [Tree.truth, Bool.or_eq_false_iff, decide_eq_false_iff_not, ne_eq, Decidable.not_not]
  constructor
  · exact fun h => h.2
  · intro h
    refine ⟨?_, h⟩
    rcases e.2 h with h | h <;> subst h <;> decide

/-- doc/snek.adoc says functions are true; in the code every function counts as false. -/
theorem C55_violated_functions (o : Nat) : (Tree.func o).truth = false := rfl

example : Truthy (.num 0x3f800000#32) := .num _ (Or.inr (by decide))
example : ¬ Truthy (.list .tuple []) := by intro h; cases h

end Snek
