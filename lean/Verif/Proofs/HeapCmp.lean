import Verif.Spec.Store
import Verif.Proofs.Cmp
/-! Comparing values in memory is comparing the trees they unfold to. -/
namespace Snek.Store
open Spec

variable {objs : List Obj}

mutual
theorem unfolds_fun : ∀ {t t' : Tree} {v : Val}, Unfolds objs t v → Unfolds objs t' v → t = t'
  | .num _, t', v, h, h' => by
    cases t' <;> simp only [Unfolds] at h h' <;> simp_all
  | .func _, t', v, h, h' => by
    cases t' <;> simp only [Unfolds] at h h' <;> simp_all
  | .builtin _, t', v, h, h' => by
    cases t' <;> simp only [Unfolds] at h h' <;> simp_all
  | .str _, t', v, h, h' => by
    cases t' <;> simp only [Unfolds] at h h' <;> (obtain ⟨i, rfl, h⟩ := h) <;> simp_all
  | .list t l, t', v, h, h' => by
    cases t' with
    | list t2 l2 =>
      simp only [Unfolds] at h h'
      obtain ⟨i, o, rfl, h1, h2, h3⟩ := h
      obtain ⟨i', o', h4, h5, h6, h7⟩ := h'
      cases h4
      rw [h1] at h5; cases h5
      rw [unfoldsL_fun h3 h7, ← h2, ← h6]
    | _ => simp only [Unfolds] at h h'; obtain ⟨i, o, rfl, h⟩ := h; simp_all
theorem unfoldsL_fun : ∀ {l l' : List Tree} {vs : List Val}, UnfoldsL objs l vs → UnfoldsL objs l' vs → l = l'
  | [], l', vs, h, h' => by
    cases vs with
    | nil => cases l' with
      | nil => rfl
      | cons a b => simp [UnfoldsL] at h'
    | cons a b => simp [UnfoldsL] at h
  | t :: l, l', vs, h, h' => by
    cases vs with
    | nil => simp [UnfoldsL] at h
    | cons a b => cases l' with
      | nil => simp [UnfoldsL] at h'
      | cons c d =>
        simp only [UnfoldsL] at h h'
        rw [unfolds_fun h.1 h'.1, unfoldsL_fun h.2 h'.2]
end

/-- A set of enclosing list objects: distinct, each with a larger unfolding. -/
structure Path (objs : List Obj) (n : Nat) (P : List Nat) : Prop where
  nodup : P.Nodup
  lt : ∀ j ∈ P, j < objs.length
  big : ∀ j ∈ P, ∃ t, Unfolds objs t (.list j) ∧ n < sizeOf t

theorem Path.nil (n : Nat) : Path objs n [] := ⟨List.nodup_nil, by simp, by simp⟩

theorem Path.mono {n m : Nat} {P : List Nat} (h : Path objs n P) (hm : m ≤ n) : Path objs m P :=
  ⟨h.nodup, h.lt, fun j hj => by obtain ⟨t, h1, h2⟩ := h.big j hj; exact ⟨t, h1, by omega⟩⟩

theorem Path.cons {P : List Nat} {t : Tree} {i m : Nat} (h : Path objs (sizeOf t) P) (hu : Unfolds objs t (.list i)) (hi : i < objs.length)
    (hm : m < sizeOf t) : Path objs m (i :: P) := by
  refine ⟨List.nodup_cons.2 ⟨fun hmem => ?_, h.nodup⟩, ?_, ?_⟩
  · obtain ⟨t', h1, h2⟩ := h.big i hmem
    rw [unfolds_fun hu h1] at h2; omega
  · intro j hj
    rcases List.mem_cons.1 hj with rfl | hj
    · exact hi
    · exact h.lt j hj
  · intro j hj
    rcases List.mem_cons.1 hj with rfl | hj
    · exact ⟨t, hu, hm⟩
    · obtain ⟨t', h1, h2⟩ := h.big j hj; exact ⟨t', h1, by omega⟩

theorem Path.len {n : Nat} {P : List Nat} (h : Path objs n P) : P.length ≤ objs.length := by
  have := List.Nodup.length_le_of_subset h.nodup (l₂ := List.range objs.length) (fun j hj => List.mem_range.2 (h.lt j hj))
  simpa using this

mutual
theorem hcmp_tree : ∀ (t t' : Tree) {a b : Val} {P : List Nat} {n : Nat}, Unfolds objs t a → Unfolds objs t' b → Path objs (sizeOf t) P →
    objs.length ≤ n + P.length → hcmp objs (n + 1) a b = some (t.cmp t')
  | .num u, t', a, b, P, n, h, h', hp, hn => by
    cases t' <;> simp only [Unfolds] at h h' <;> subst h <;> first | (subst h'; simp [hcmp, Tree.cmp, Tree.type, Val.type]) | (obtain ⟨i, rfl, h'⟩ := h'; simp [hcmp, Tree.cmp, Tree.type, Val.type]) |
      (obtain ⟨i, o, rfl, h'⟩ := h'; simp [hcmp, Tree.cmp, Tree.type, Val.type])
  | .func u, t', a, b, P, n, h, h', hp, hn => by
    cases t' <;> simp only [Unfolds] at h h' <;> subst h <;> first | (subst h'; simp [hcmp, Tree.cmp, Tree.type, Val.type]) | (obtain ⟨i, rfl, h'⟩ := h'; simp [hcmp, Tree.cmp, Tree.type, Val.type]) |
      (obtain ⟨i, o, rfl, h'⟩ := h'; simp [hcmp, Tree.cmp, Tree.type, Val.type])
  | .builtin u, t', a, b, P, n, h, h', hp, hn => by
    cases t' <;> simp only [Unfolds] at h h' <;> subst h <;> first | (subst h'; simp [hcmp, Tree.cmp, Tree.type, Val.type]) | (obtain ⟨i, rfl, h'⟩ := h'; simp [hcmp, Tree.cmp, Tree.type, Val.type]) |
      (obtain ⟨i, o, rfl, h'⟩ := h'; simp [hcmp, Tree.cmp, Tree.type, Val.type])
  | .str u, t', a, b, P, n, h, h', hp, hn => by
    simp only [Unfolds] at h
    obtain ⟨i, rfl, h⟩ := h
    cases t' <;> simp only [Unfolds] at h' <;> first | (subst h'; simp [hcmp, Tree.cmp, Tree.type, Val.type]) | (obtain ⟨i, rfl, h'⟩ := h'; simp [hcmp, Tree.cmp, Tree.type, Val.type, h, h']) |
      (obtain ⟨i, o, rfl, h'⟩ := h'; simp [hcmp, Tree.cmp, Tree.type, Val.type])
  | .list ty l, t', a, b, P, n, h, h', hp, hn => by
    have hu := h
    simp only [Unfolds] at h
    obtain ⟨i, o, rfl, h1, h2, h3⟩ := h
    have hi : i < objs.length := (List.getElem?_eq_some_iff.1 h1).1
    have hp2 : Path objs (sizeOf l) (i :: P) := hp.cons hu hi (by simp only [Tree.list.sizeOf_spec]; omega)
    have hl := hp2.len
    rw [List.length_cons] at hl
    obtain ⟨m, rfl⟩ : ∃ m, n = m + 1 := ⟨n - 1, by omega⟩
    cases t' with
    | list ty2 l2 =>
      simp only [Unfolds] at h'
      obtain ⟨i', o', rfl, h1', h2', h3'⟩ := h'
      rw [hcmp]
      simp only [h1, h1', h2, h2', Tree.cmp]
      split
      · rfl
      · exact hcmpLoop_tree l l2 h3 h3' hp2 (by rw [List.length_cons]; omega)
    | str s => simp only [Unfolds] at h'; obtain ⟨i, rfl, h'⟩ := h'; simp [hcmp, Tree.cmp, Tree.type, Val.type]
    | num s => simp only [Unfolds] at h'; subst h'; simp [hcmp, Tree.cmp, Tree.type, Val.type]
    | func s => simp only [Unfolds] at h'; subst h'; simp [hcmp, Tree.cmp, Tree.type, Val.type]
    | builtin s => simp only [Unfolds] at h'; subst h'; simp [hcmp, Tree.cmp, Tree.type, Val.type]
theorem hcmpLoop_tree : ∀ (l l' : List Tree) {a b : List Val} {P : List Nat} {n : Nat}, UnfoldsL objs l a → UnfoldsL objs l' b →
    Path objs (sizeOf l) P → objs.length ≤ n + P.length → hcmpLoop (hcmp objs (n + 1)) a b = some (cmpList l l')
  | [], l', a, b, P, n, h, h', hp, hn => by
    cases a with
    | nil => cases b <;> cases l' <;> simp_all [UnfoldsL, hcmpLoop, cmpList]
    | cons x y => simp [UnfoldsL] at h
  | t :: l, l', a, b, P, n, h, h', hp, hn => by
    cases a with
    | nil => simp [UnfoldsL] at h
    | cons x y =>
      cases b with
      | nil => cases l' <;> simp_all [UnfoldsL, hcmpLoop, cmpList]
      | cons z w =>
        cases l' with
        | nil => simp [UnfoldsL] at h'
        | cons t2 l2 =>
          simp only [UnfoldsL] at h h'
          have h1 := hcmp_tree t t2 (n := n) h.1 h'.1 (hp.mono (by simp only [List.cons.sizeOf_spec]; omega)) hn
          have h2 := hcmpLoop_tree l l2 (n := n) h.2 h'.2 (hp.mono (by simp only [List.cons.sizeOf_spec]; omega)) hn
          simp only [hcmpLoop, h1, Option.bind_eq_bind, Option.bind_some, cmpList, h2, Option.pure_def]
          split <;> rfl
end

mutual
theorem hmut_tree : ∀ (t : Tree) {a : Val} {P : List Nat} {n : Nat}, Unfolds objs t a → Path objs (sizeOf t) P →
    objs.length ≤ n + P.length → hmut objs (n + 1) a = some t.mutable
  | .num u, a, P, n, h, hp, hn => by simp only [Unfolds] at h; subst h; simp [hmut, Tree.mutable]
  | .func u, a, P, n, h, hp, hn => by simp only [Unfolds] at h; subst h; simp [hmut, Tree.mutable]
  | .builtin u, a, P, n, h, hp, hn => by simp only [Unfolds] at h; subst h; simp [hmut, Tree.mutable]
  | .str u, a, P, n, h, hp, hn => by simp only [Unfolds] at h; obtain ⟨i, rfl, h⟩ := h; simp [hmut, Tree.mutable]
  | .list ty l, a, P, n, h, hp, hn => by
    have hu := h
    simp only [Unfolds] at h
    obtain ⟨i, o, rfl, h1, h2, h3⟩ := h
    have hi : i < objs.length := (List.getElem?_eq_some_iff.1 h1).1
    have hp2 : Path objs (sizeOf l) (i :: P) := hp.cons hu hi (by simp only [Tree.list.sizeOf_spec]; omega)
    have hl := hp2.len
    rw [List.length_cons] at hl
    obtain ⟨m, rfl⟩ : ∃ m, n = m + 1 := ⟨n - 1, by omega⟩
    rw [hmut]
    simp only [h1, h2, Tree.mutable]
    split
    · exact hmutLoop_tree l h3 hp2 (by rw [List.length_cons]; omega)
    · rfl
theorem hmutLoop_tree : ∀ (l : List Tree) {a : List Val} {P : List Nat} {n : Nat}, UnfoldsL objs l a →
    Path objs (sizeOf l) P → objs.length ≤ n + P.length → hmutLoop (hmut objs (n + 1)) a = some (anyMutable l)
  | [], a, P, n, h, hp, hn => by
    cases a with
    | nil => simp [hmutLoop, anyMutable]
    | cons x y => simp [UnfoldsL] at h
  | t :: l, a, P, n, h, hp, hn => by
    cases a with
    | nil => simp [UnfoldsL] at h
    | cons x y =>
      simp only [UnfoldsL] at h
      have h1 := hmut_tree t (n := n) h.1 (hp.mono (by simp only [List.cons.sizeOf_spec]; omega)) hn
      have h2 := hmutLoop_tree l (n := n) h.2 (hp.mono (by simp only [List.cons.sizeOf_spec]; omega)) hn
      simp only [hmutLoop, h1, Option.bind_eq_bind, Option.bind_some, anyMutable, h2, Option.pure_def]
      cases t.mutable <;> rfl
end

variable {A : Arch} {powf : BitVec 32 → BitVec 32 → BitVec 32} {fmt : List Obj → List UInt8 → Val → Option (Option (List UInt8))}
  {any : BinOp → BitVec 32 → BitVec 32 → BitVec 32} {anyOff : BitVec 32 → Int}

theorem real_cmp {t t' : Tree} {a b : Val} (h : Unfolds objs t a) (h' : Unfolds objs t' b) :
    (Env.real A powf fmt any anyOff).cmp objs a b = t.cmp t' := by
  simp only [Env.real]
  rw [hcmp_tree t t' h h' (.nil _) (by simp)]; rfl

theorem real_mut {t : Tree} {a : Val} (h : Unfolds objs t a) : (Env.real A powf fmt any anyOff).isMut objs a = t.mutable := by
  simp only [Env.real]
  rw [hmut_tree t h (.nil _) (by simp)]; rfl

/-- Comparing equal is being equal, for values in stored form. -/
theorem real_cmp_same {t t' : Tree} {a b : Val} (h : Unfolds objs t a) (h' : Unfolds objs t' b) (hs : Stored t) (hs' : Stored t') :
    (Env.real A powf fmt any anyOff).cmp objs a b = 0 ↔ Same t t' := by
  rw [real_cmp h h', cmp_zero_ok, okCmp_same t t' hs hs']

end Snek.Store
