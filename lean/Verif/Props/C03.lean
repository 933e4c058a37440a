import Verif.Proofs.Cmp
/-!
# C03 Lists and tuples compare lexicographically

Full statement (false of the code): for all stored-form values `a b`, `a.cmp b < 0 ↔ Less a b` and
`a.cmp b > 0 ↔ Less b a`. Equality and "less" answers are right for all values; the code errs exactly when the left list is
a proper prefix of the right one on the way to the first difference (`Spec.PrefixClash`), where it answers "greater".
-/
namespace Snek
open Spec

/-- Equality is element-wise equality, for all finite nested values. -/
theorem C03_equality (a b : Tree) (ha : Stored a) (hb : Stored b) : a.cmp b = 0 ↔ Same a b := by
  rw [cmp_zero_ok, okCmp_same a b ha hb]

/-- A "less" answer is always right. -/
theorem C03_less_sound (a b : Tree) (ha : Stored a) (hb : Stored b) (h : a.cmp b < 0) : Less a b :=
  (okCmp_less a b ha hb).1 (cmp_neg_ok a b h)

/-- Missing from the full statement: pairs in which the left list is a proper prefix of the right one. -/
theorem C03_lexicographic_partial (a b : Tree) (ha : Stored a) (hb : Stored b) (hp : ¬ PrefixClash a b) :
    (a.cmp b < 0 ↔ Less a b) ∧ (a.cmp b = 0 ↔ Same a b) ∧ (a.cmp b > 0 ↔ Less b a) := by
  rw [cmp_ok a b ha hb hp]
  exact ⟨okCmp_less a b ha hb, okCmp_same a b ha hb, okCmp_gt a b ha hb⟩

/-- `a < b` exactly when `b > a` (outside prefix clashes in either direction). -/
theorem C03_antisymmetric_partial (a b : Tree) (ha : Stored a) (hb : Stored b) (h1 : ¬ PrefixClash a b) (h2 : ¬ PrefixClash b a) :
    a.cmp b = - b.cmp a := by
  rw [cmp_ok a b ha hb h1, cmp_ok b a hb ha h2, okCmp_antisym]

/-- The intended order is a strict total order on stored values: the specification is consistent. -/
theorem C03_spec_total (a b c : Tree) (ha : Stored a) (hb : Stored b) (hc : Stored c) :
    (Less a b ∨ Same a b ∨ Less b a) ∧ ¬ (Less a b ∧ Less b a) ∧ ¬ (Less a b ∧ Same a b) ∧
    (Less a b → Less b c → Less a c) := by
  have t := okCmp_tri a b c ha hb hc
  have l := t.le; have e := t.eq
  rw [← okCmp_less a b ha hb, ← okCmp_gt a b ha hb, ← okCmp_same a b ha hb, ← okCmp_less b c hb hc, ← okCmp_less a c ha hc]
  omega

/-- Every container that is a proper prefix of another of the same kind is reported greater than it — in both directions. -/
theorem C03_violated_prefix (t : LType) (l : List Tree) (x : Tree) (r : List Tree)
    (hl : StoredList l) :
    (Tree.list t l).cmp (.list t (l ++ x :: r)) = 1 ∧ (Tree.list t (l ++ x :: r)).cmp (.list t l) = 1 ∧
    Less (.list t l) (.list t (l ++ x :: r)) := by
  have h : ∀ l, StoredList l → cmpList l (l ++ x :: r) = 1 ∧ cmpList (l ++ x :: r) l = 1 ∧ Lex Less Same l (l ++ x :: r) := by
    intro l
    induction l with
    | nil => intro _; exact ⟨rfl, rfl, Lex.nil _ _⟩
    | cons a l ih =>
      intro hs
      simp only [StoredList] at hs
      obtain ⟨h1, h2, h3⟩ := ih hs.2
      have hr : okCmp a a = 0 := by have := okCmp_antisym a a; omega
      have hc : a.cmp a = 0 := (cmp_zero_ok a a).2 hr
      refine ⟨?_, ?_, ?_⟩
      · simp [cmpList, hc, h1]
      · simp [cmpList, hc, h2]
      · exact Lex.tail _ _ _ _ ((okCmp_same a a hs.1 hs.1).1 hr) h3
  obtain ⟨h1, h2, h3⟩ := h l hl
  refine ⟨by simp [Tree.cmp, h1], by simp [Tree.cmp, h2], Less.list _ _ _ h3⟩

/-! Hypotheses are met: `[1, (2, "a")]` against `[1, (3,)]` is not a clash and is ordered. -/
private def ex1 : Tree := .list .list [.num 0x3f800000#32, .list .tuple [.num 0x40000000#32, .str [97]]]
private def ex2 : Tree := .list .list [.num 0x3f800000#32, .list .tuple [.num 0x40400000#32]]
example : Stored ex1 ∧ Stored ex2 := by
  refine ⟨?_, ?_⟩ <;> simp only [ex1, ex2, Stored, StoredList] <;> simp <;> decide
example : ¬ PrefixClash ex1 ex2 := by
  simp [ex1, ex2, PrefixClash, PrefixClashList]
example : ex1.cmp ex2 < 0 := by decide

end Snek
