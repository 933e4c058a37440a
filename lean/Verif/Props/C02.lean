import Verif.Proofs.Cmp
/-!
# C02 Scalar comparison is a consistent total order

`cmpOp` is the model of the comparison operators (snek-exec.c:273-304); `Spec.Less` and `Spec.Same` are the intended order
and equality, `Spec.Scalar` the values that are not containers (numbers in stored form).
-/
namespace Snek
open Spec

private theorem ops (a b : Tree) (ha : Scalar a) (hb : Scalar b) (na : a.isNan = false) (nb : b.isNan = false) :
    (cmpOp .lt a b = true ↔ okCmp a b < 0) ∧ (cmpOp .gt a b = true ↔ okCmp a b > 0) ∧
    (cmpOp .eq a b = true ↔ okCmp a b = 0) ∧ (cmpOp .ne a b = true ↔ okCmp a b ≠ 0) ∧
    (cmpOp .le a b = true ↔ okCmp a b ≤ 0) ∧ (cmpOp .ge a b = true ↔ okCmp a b ≥ 0) := by
  simp [cmpOp, na, nb, cmp_scalar a b ha hb]

/-- Each comparison operator decides the intended relation on all scalars other than NaN. -/
theorem C02_operators (a b : Tree) (ha : Scalar a) (hb : Scalar b) (na : a.isNan = false) (nb : b.isNan = false) :
    (cmpOp .lt a b = true ↔ Less a b) ∧ (cmpOp .gt a b = true ↔ Less b a) ∧
    (cmpOp .eq a b = true ↔ Same a b) ∧ (cmpOp .ne a b = true ↔ ¬ Same a b) ∧
    (cmpOp .le a b = true ↔ ¬ Less b a) ∧ (cmpOp .ge a b = true ↔ ¬ Less a b) := by
  obtain ⟨h1, h2, h3, h4, h5, h6⟩ := ops a b ha hb na nb
  have l := okCmp_less a b (scalar_stored ha) (scalar_stored hb)
  have g := okCmp_gt a b (scalar_stored ha) (scalar_stored hb)
  have s := okCmp_same a b (scalar_stored ha) (scalar_stored hb)
  rw [h1, h2, h3, h4, h5, h6, ← l, ← g, ← s]
  refine ⟨Iff.rfl, Iff.rfl, Iff.rfl, Iff.rfl, ?_, ?_⟩ <;> omega

/-- Exactly one of `a < b`, `a == b`, `a > b`. -/
theorem C02_trichotomy (a b : Tree) (ha : Scalar a) (hb : Scalar b) (na : a.isNan = false) (nb : b.isNan = false) :
    (cmpOp .lt a b = true ∧ cmpOp .eq a b = false ∧ cmpOp .gt a b = false) ∨
    (cmpOp .lt a b = false ∧ cmpOp .eq a b = true ∧ cmpOp .gt a b = false) ∨
    (cmpOp .lt a b = false ∧ cmpOp .eq a b = false ∧ cmpOp .gt a b = true) := by
  obtain ⟨h1, h2, h3, -, -, -⟩ := ops a b ha hb na nb
  rw [← Bool.not_eq_true, ← Bool.not_eq_true, ← Bool.not_eq_true, h1, h2, h3]
  omega

/-- `<`, `==` and `<=` are transitive and `==` is reflexive and symmetric; `<=` is the negation of `>`, `a < b` is `b > a`. -/
theorem C02_order (a b c : Tree) (ha : Scalar a) (hb : Scalar b) (hc : Scalar c)
    (na : a.isNan = false) (nb : b.isNan = false) (nc : c.isNan = false) :
    (cmpOp .lt a b = true → cmpOp .lt b c = true → cmpOp .lt a c = true) ∧
    (cmpOp .le a b = true → cmpOp .le b c = true → cmpOp .le a c = true) ∧
    (cmpOp .eq a b = true → cmpOp .eq b c = true → cmpOp .eq a c = true) ∧
    cmpOp .eq a a = true ∧
    cmpOp .eq a b = cmpOp .eq b a ∧
    cmpOp .lt a b = cmpOp .gt b a ∧
    cmpOp .le a b = !cmpOp .gt a b ∧ cmpOp .ge a b = !cmpOp .lt a b ∧ cmpOp .ne a b = !cmpOp .eq a b := by
  have o1 := ops a b ha hb na nb
  have o2 := ops b c hb hc nb nc
  have o3 := ops a c ha hc na nc
  have o4 := ops a a ha ha na na
  have o5 := ops b a hb ha nb na
  have t := okCmp_tri a b c (scalar_stored ha) (scalar_stored hb) (scalar_stored hc)
  have l := t.le; have e := t.eq
  have t' := okCmp_tri c b a (scalar_stored hc) (scalar_stored hb) (scalar_stored ha)
  have l' := t'.le
  have s1 := okCmp_antisym a b
  have s2 := okCmp_antisym b c
  have s3 := okCmp_antisym a c
  have s4 := okCmp_antisym a a
  refine ⟨?_, ?_, ?_, ?_, ?_, ?_, ?_, ?_, ?_⟩
  · rw [o1.1, o2.1, o3.1]; omega
  · rw [o1.2.2.2.2.1, o2.2.2.2.2.1, o3.2.2.2.2.1]; omega
  · rw [o1.2.2.1, o2.2.2.1, o3.2.2.1]; omega
  · rw [o4.2.2.1]; omega
  · rw [Bool.eq_iff_iff, o1.2.2.1, o5.2.2.1]; omega
  · rw [Bool.eq_iff_iff, o1.1, o5.2.1]; omega
  · rw [Bool.eq_iff_iff, Bool.not_eq_true', ← Bool.not_eq_true, o1.2.2.2.2.1, o1.2.1]; omega
  · rw [Bool.eq_iff_iff, Bool.not_eq_true', ← Bool.not_eq_true, o1.2.2.2.2.2, o1.1]; omega
  · rw [Bool.eq_iff_iff, Bool.not_eq_true', ← Bool.not_eq_true, o1.2.2.2.1, o1.2.2.1]

/-- Values of different kinds are always ordered the same way round: by kind, whatever the values are. -/
theorem C02_kinds (a b a' b' : Tree) (ha : a.isNan = false) (hb : b.isNan = false) (ha' : a'.isNan = false) (hb' : b'.isNan = false)
    (h : kindRank a ≠ kindRank b) (h1 : kindRank a' = kindRank a) (h2 : kindRank b' = kindRank b) (op : CmpOp) :
    cmpOp op a b = cmpOp op a' b' := by
  have key : ∀ x y : Tree, kindRank x ≠ kindRank y → x.cmp y = (kindRank x : Int) - kindRank y := by
    intro x y; cases x <;> cases y <;> simp [kindRank, Tree.cmp, Tree.type, PType.num]
  simp only [cmpOp, ha, hb, ha', hb', key a b h, key a' b' (by rw [h1, h2]; exact h), h1, h2]

/-- The canonical NaN compares unequal to everything, itself included, and is not ordered. -/
theorem C02_nan (a b : Tree) (h : a.isNan = true ∨ b.isNan = true) (op : CmpOp) : cmpOp op a b = decide (op = .ne) := by
  unfold cmpOp
  rcases h with h | h <;> simp [h]

/-- The value of the built-in constant `math.nan` (`NAN` of the C library, pattern 0x7fc00000, stored without
canonicalisation) is not in stored form, and compares equal to every number. -/
theorem C02_violated_math_nan (u : BitVec 32) (h : isNan u = false) : cmpOp .eq (.num 0x7fc00000#32) (.num u) = true := by
  have h1 : isNan 0x7fc00000#32 = false := by decide
  have h2 : isNanF 0x7fc00000#32 = true := by decide
  simp [cmpOp, Tree.isNan, h1, h, Tree.cmp, numCmp, fltF, h2]

/-! Hypotheses are met. -/
example : Scalar (.num 0x3f800000#32) ∧ Scalar (.str [104, 105]) ∧ Scalar Tree.none ∧
    (Tree.num 0x3f800000#32).isNan = false ∧ (Tree.str [104, 105]).isNan = false := by
  refine ⟨by intro h; revert h; decide, trivial, trivial, by decide, by decide⟩
example : cmpOp .lt (.num 0x3f800000#32) (.num 0x40000000#32) = true := by decide
example : cmpOp .lt (.num 0xbf800000#32) (.num 0x80000000#32) = true := by decide
example : cmpOp .eq (.num 0x80000000#32) (.num 0#32) = true := by decide
example : cmpOp .lt (.str [97]) (.str [97, 98]) = true := by decide

end Snek
