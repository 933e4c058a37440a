import Verif.Proofs.DemoStore
import Verif.Proofs.HeapCmp
/-!
# C53 `in` and `not in` are complementary

`Same` is equality of values (Spec/Order). `Unfolds` says what a value looks like when all references are followed; every value
that does not contain itself unfolds.
-/
namespace Snek.Store
open Spec

/-- What `in` looks for in a container: the keys of a dictionary (stored key, value, key, value, ...), otherwise the elements. -/
def members : LType → List Tree → List Tree
  | .dict, k :: _ :: l => k :: members .dict l
  | .dict, l => l
  | _, l => l

theorem inLoop_one (cmp : Val → Val → Int) (a : Val) (h : 0 < 1) (l : List Val) : inLoop cmp a 1 h l = true ↔ ∃ x ∈ l, cmp a x = 0 := by
  induction l with
  | nil => rw [inLoop]; simp
  | cons x l ih =>
    rw [inLoop]
    by_cases hc : cmp a x = 0
    · simp [hc]
    · rw [if_neg hc]; simp only [List.drop_succ_cons, List.drop_zero, ih, List.mem_cons, exists_eq_or_imp, hc, false_or]

theorem inLoop_two (cmp : Val → Val → Int) (a : Val) (h : 0 < 2) (x y : Val) (l : List Val) :
    inLoop cmp a 2 h (x :: y :: l) = if cmp a x = 0 then true else inLoop cmp a 2 h l := by
  rw [inLoop]; rfl

variable {A : Arch} {powf : BitVec 32 → BitVec 32 → BitVec 32} {fmt : List Obj → List UInt8 → Val → Option (Option (List UInt8))}
  {any : BinOp → BitVec 32 → BitVec 32 → BitVec 32} {anyOff : BitVec 32 → Int}

theorem inLoop_seq {objs : List Obj} {t : Tree} {a : Val} (ha : Unfolds objs t a) (ht : Stored t) (h : 0 < 1) :
    ∀ (l : List Tree) (vs : List Val), UnfoldsL objs l vs → StoredList l →
      (inLoop ((Env.real A powf fmt any anyOff).cmp objs) a 1 h vs = true ↔ ∃ x ∈ l, Same t x) := by
  intro l
  induction l with
  | nil => intro vs hu _; cases vs with
    | nil => rw [inLoop]; simp
    | cons => simp [UnfoldsL] at hu
  | cons x l ih =>
    intro vs hu hst
    cases vs with
    | nil => simp [UnfoldsL] at hu
    | cons v vs =>
      simp only [UnfoldsL] at hu
      simp only [StoredList] at hst
      rw [inLoop]
      have := real_cmp_same (A := A) (powf := powf) (fmt := fmt) (any := any) (anyOff := anyOff) ha hu.1 ht hst.1
      simp only [List.drop_succ_cons, List.drop_zero, List.mem_cons, exists_eq_or_imp, ← this, ← ih vs hu.2 hst.2]
      split <;> simp_all

theorem inLoop_dict {objs : List Obj} {t : Tree} {a : Val} (ha : Unfolds objs t a) (ht : Stored t) (h : 0 < 2) :
    ∀ (n : Nat) (l : List Tree) (vs : List Val), l.length = 2 * n → UnfoldsL objs l vs → StoredList l →
      (inLoop ((Env.real A powf fmt any anyOff).cmp objs) a 2 h vs = true ↔ ∃ x ∈ members .dict l, Same t x) := by
  intro n
  induction n with
  | zero =>
    intro l vs hl hu _
    cases l with
    | nil => cases vs with
      | nil => rw [inLoop]; simp [members]
      | cons => simp [UnfoldsL] at hu
    | cons => simp at hl
  | succ n ih =>
    intro l vs hl hu hst
    match l, vs, hu with
    | [], _, _ => simp only [List.length_nil] at hl; omega
    | [x], _, _ => simp only [List.length_cons, List.length_nil] at hl; omega
    | x :: y :: l, [], hu => simp [UnfoldsL] at hu
    | x :: y :: l, [v], hu => simp [UnfoldsL] at hu
    | x :: y :: l, v :: w :: vs, hu =>
      simp only [UnfoldsL] at hu
      simp only [StoredList] at hst
      rw [inLoop_two]
      have := real_cmp_same (A := A) (powf := powf) (fmt := fmt) (any := any) (anyOff := anyOff) ha hu.1 ht hst.1
      rw [members]
      simp only [List.mem_cons, exists_eq_or_imp, ← this,
        ← ih l vs (by simp only [List.length_cons] at hl; omega) hu.2.2 hst.2.2]
      split <;> simp_all

/-- Membership in a list, tuple or dictionary. -/
theorem C53_container (s : S) (hs : Ok s) (a : Val) (j : Nat) (t : Tree) (ty : LType) (l : List Tree)
    (ha : Unfolds s.objs t a) (hj : Unfolds s.objs (.list ty l) (.list j)) (hst : Stored t) (hsl : StoredList l) :
    ∃ found : Bool, (found = true ↔ ∃ x ∈ members ty l, Same t x) ∧
      isIn (Env.real A powf fmt any anyOff) true a (.list j) s = some (ofBool found, s) ∧ isIn (Env.real A powf fmt any anyOff) false a (.list j) s = some (ofBool (!found), s) := by
  simp only [Unfolds] at hj
  obtain ⟨i, o, e, hj, hty, hl⟩ := hj
  cases e
  have ho := lst_iff.2 hj
  obtain ⟨o1, o2, o3⟩ := hs.1 j o ho
  have hx : ∀ pos, isIn (Env.real A powf fmt any anyOff) pos a (.list j) s =
      some (ofBool (inLoop ((Env.real A powf fmt any anyOff).cmp s.objs) a (if o.type = .dict then 2 else 1) (by split <;> omega) (o.data.take o.size) == pos), s) := by
    intro pos
    cases a <;> simp only [isIn, ho, Option.bind_eq_bind, Option.bind_some, mread_ok (show o.size ≤ o.data.length by omega), Option.pure_def]
  refine ⟨inLoop ((Env.real A powf fmt any anyOff).cmp s.objs) a (if o.type = .dict then 2 else 1) (by split <;> omega) (o.data.take o.size),
    ?_, by rw [hx]; simp, by rw [hx]; simp⟩
  by_cases hd : o.type = .dict
  · have hlen : ∀ (l : List Tree) (vs : List Val), UnfoldsL s.objs l vs → l.length = vs.length := by
      intro l
      induction l with
      | nil => intro vs h; cases vs with
        | nil => rfl
        | cons => simp [UnfoldsL] at h
      | cons x l ih => intro vs h; cases vs with
        | nil => simp [UnfoldsL] at h
        | cons v vs => simp only [UnfoldsL] at h; simp [ih vs h.2]
    have h1 := hlen _ _ hl
    have h2 := o3 hd
    rw [List.length_take] at h1
    have : ty = .dict := by rw [← hty, hd]
    subst this
    simp only [hd, if_true]
    exact inLoop_dict ha hst _ (o.size / 2) l _ (by omega) hl hsl
  · simp only [hd, if_false]
    have : members ty l = l := by cases ty with
      | dict => exact absurd hty hd
      | _ => rw [members] <;> (intros; contradiction)
    rw [this]
    exact inLoop_seq ha hst _ l _ hl hsl

theorem strstr_iff (a : List UInt8) : ∀ b, strstr b a = true ↔ ∃ p q, b = p ++ a ++ q := by
  intro b
  induction b with
  | nil =>
    rw [strstr, Bool.or_false, List.isPrefixOf_iff_prefix]
    constructor
    · rintro ⟨q, h⟩; exact ⟨[], q, by rw [List.nil_append, h]⟩
    · rintro ⟨p, q, h⟩
      have : p = [] := by cases p <;> simp_all
      subst this; exact ⟨q, h.symm⟩
  | cons c b ih =>
    rw [strstr, Bool.or_eq_true, List.isPrefixOf_iff_prefix]
    simp only [ih]
    constructor
    · rintro (⟨q, h⟩ | ⟨p, q, h⟩)
      · exact ⟨[], q, by rw [List.nil_append, h]⟩
      · exact ⟨c :: p, q, by rw [h]; rfl⟩
    · rintro ⟨p, q, h⟩
      cases p with
      | nil => exact .inl ⟨q, h.symm⟩
      | cons d p => rw [List.cons_append, List.cons_append, List.cons.injEq] at h; exact .inr ⟨p, q, h.2⟩

/-- Membership in a string: the substring relation. -/
theorem C53_string {E : Env} (s : S) (i j : Nat) (a b : List UInt8) (hi : s.bytes i = some a) (hj : s.bytes j = some b) :
    ∃ found : Bool, (found = true ↔ ∃ p q, b = p ++ a ++ q) ∧
      isIn E true (.str i) (.str j) s = some (ofBool found, s) ∧ isIn E false (.str i) (.str j) s = some (ofBool (!found), s) := by
  refine ⟨strstr b a, strstr_iff a b, ?_, ?_⟩ <;> simp [isIn, hi, hj]

/-- Anything else, except two numbers, is an error for both. -/
theorem C53_refused {E : Env} (s : S) (pos : Bool) (a b : Val) (h1 : ∀ j, b ≠ .list j) (h2 : ∀ i j, ¬ (a = .str i ∧ b = .str j))
    (h3 : ∀ u v, ¬ (a = .num u ∧ b = .num v)) : isIn E pos a b s = some (Val.none, s.fail) := by
  cases a <;> cases b <;> simp_all [isIn, typeErr]

/-- The two results are the truth values. -/
example : ofBool true = one ∧ ofBool false = Val.zero := ⟨rfl, rfl⟩

/-! Membership of a nested tuple: the hypotheses hold, and the element found is equal without being the same object. -/

example : ∃ s, runOps (demoEnv .posix) [.build .tuple [one], .build .tuple [one], .build .list [two, .list 0]] demoStart = some s ∧
    Unfolds s.objs (.list .tuple [.num 0x3f800000]) (.list 1) ∧
    Unfolds s.objs (.list .list [.num 0x40000000, .list .tuple [.num 0x3f800000]]) (.list 2) ∧
    isIn (demoEnv .posix) true (.list 1) (.list 2) s = some (one, s) ∧ isIn (demoEnv .posix) false (.list 1) (.list 2) s = some (Val.zero, s) := by
  have h1 : ∃ s, runOps (demoEnv .posix) [.build .tuple [one], .build .tuple [one], .build .list [two, .list 0]] demoStart = some s ∧
      Unfolds s.objs (.list .tuple [.num 0x3f800000]) (.list 1) ∧
      Unfolds s.objs (.list .list [.num 0x40000000, .list .tuple [.num 0x3f800000]]) (.list 2) := by
    refine ⟨⟨[.list ⟨.tuple, 1, 1, [one]⟩, .list ⟨.tuple, 1, 1, [one]⟩, .list ⟨.list, 2, 5, [two, .list 0, Val.zero, Val.zero, Val.zero]⟩],
      Option.none, fun _ _ => true, 6, false⟩, rfl, ?_, ?_⟩
    · simp only [Unfolds]; refine ⟨1, _, rfl, rfl, rfl, ?_⟩; simp [UnfoldsL, Unfolds, one]
    · simp only [Unfolds]; refine ⟨2, _, rfl, rfl, rfl, ?_⟩
      simp only [List.take, UnfoldsL, Unfolds, two, and_true, true_and]
      refine ⟨0, _, rfl, rfl, rfl, ?_⟩; simp [UnfoldsL, Unfolds, one]
  obtain ⟨s, h1, h2, h3⟩ := h1
  have hok : Ok s := by
    cases h1
    refine ⟨fun i o h => ?_, fun i h => by cases h⟩
    match i, h with
    | 0, h => cases h; exact ⟨by decide, rfl, by decide⟩
    | 1, h => cases h; exact ⟨by decide, rfl, by decide⟩
    | 2, h => cases h; exact ⟨by decide, rfl, by decide⟩
  obtain ⟨f, f1, f2, f3⟩ := C53_container (A := .posix) (powf := fun _ _ => 0) (fmt := fun _ _ _ => Option.none) (any := fun _ _ _ => 0)
    (anyOff := fun _ => 0) s hok _ _ _ _ _ h2 h3 (by simp only [Stored, StoredList, and_true]; decide) (by simp only [StoredList, Stored, and_true]; decide)
  have : f = true := f1.2 ⟨.list .tuple [.num 0x3f800000], by simp [members], by simp [Same, SameList]⟩
  subst this
  exact ⟨s, h1, h2, h3, f2, f3⟩

/-- With two numbers, `1 in 2` and `1 not in 2` are both 1, without an error. -/
theorem C53_violated_numbers (E : Env) (s : S) : isIn E true one two s = some (one, s) ∧ isIn E false one two s = some (one, s) := ⟨rfl, rfl⟩

end Snek.Store
