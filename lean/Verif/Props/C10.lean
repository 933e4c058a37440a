import Verif.Proofs.DemoStore
import Verif.Proofs.StoreIdx
import Verif.Proofs.Short
/-!
# C10 List arithmetic and aliasing

`Ok` holds in every state a program reaches (C13). `Fits`: the memory for the result is within the range of offsets.
-/
namespace Snek.Store
open Spec

variable {E : Env}

/-- Outcome of an operator that makes a list: either the allocator refuses a request, which is an error, or the result is a list with type
`t` and elements `l` that did not exist before (for an empty tuple it may be the shared one). Objects that existed are unchanged. -/
def MakesList (s : S) (t : LType) (l : List Val) (x : Option (Val × S)) : Prop :=
  ∃ r s', x = some (r, s') ∧ s.objs <+: s'.objs ∧
    ((r = Val.none ∧ s'.abort = true ∧ s.Short) ∨
     ∃ k, r = .list k ∧ s'.abort = s.abort ∧ s'.elems k = some (t, l) ∧ (s.objs.length ≤ k ∨ (t = .tuple ∧ l = [])))

theorem Builds.makes {s : S} {t : LType} {l : List Val} {x : Option (Option Nat × S)}
    (h : ∃ r s', x = some (r, s') ∧ Builds s t l r s') (hsh : ∀ s', x = some (none, s') → s.Short) : MakesList s t l (x.bind fun p => some (optList p.1, p.2)) := by
  obtain ⟨r, s', rfl, h2, h3, h4⟩ := h
  refine ⟨_, s', rfl, h2.pre, ?_⟩
  rcases h4 with ⟨rfl, h5⟩ | ⟨k, rfl, h5, h6, h7⟩
  · exact .inl ⟨rfl, h5, hsh _ rfl⟩
  · exact .inr ⟨k, rfl, h5, h6, h7.imp (fun h => by omega) (fun h => ⟨h.1, h.2.1⟩)⟩

theorem elems_obj {s : S} (hs : Ok s) {i : Nat} {t : LType} {l : List Val} (h : s.elems i = some (t, l)) :
    ∃ o, s.lst i = some o ∧ o.type = t ∧ o.data.take o.size = l ∧ l.length = o.size := by
  obtain ⟨o, ho, hl⟩ := Option.map_eq_some_iff.1 h
  simp only [Prod.mk.injEq] at hl
  obtain ⟨o1, o2, -⟩ := hs.1 i o ho
  exact ⟨o, ho, hl.1, hl.2, by rw [← hl.2, List.length_take]; omega⟩

/-- `a + b` on two lists or two tuples. `a` and `b` may be the same object. -/
theorem C10_plus (s : S) (hs : Ok s) (i j : Nat) (t : LType) (ht : t = .list ∨ t = .tuple) (l l' : List Val)
    (hi : s.elems i = some (t, l)) (hj : s.elems j = some (t, l')) (hf : Fits E (l.length + l'.length)) :
    MakesList s t (l ++ l') (arith E .plus false (.list i) (.list j) s) := by
  obtain ⟨a, ha, a1, a2, a3⟩ := elems_obj hs hi
  obtain ⟨b, hb, b1, b2, b3⟩ := elems_obj hs hj
  have hd : t ≠ .dict := by rcases ht with rfl | rfl <;> decide
  have h := Builds.makes (plus_ok (E := E) hs ha hb (by rw [← a3, ← b3]; exact hf) (by rw [a1]; exact hd)) (fun _ => plus_short)
  rw [a1, a2, b2] at h
  have : arith E .plus false (.list i) (.list j) s = (plus E s i j).bind fun p => some (optList p.1, p.2) := by
    simp only [arith, ha, hb, Option.bind_eq_bind, Option.bind_some, a1, b1, Bool.false_and, Bool.false_eq_true, if_false, Option.pure_def]
    rw [if_pos ⟨trivial, hd⟩]
  rw [this]; exact h

/-- `a * n` and `n * a` for a list or tuple and a number denoting an integer `n ≥ 0`. `a *= n` is the same. -/
theorem C10_times (s : S) (hs : Ok s) (i : Nat) (t : LType) (ht : t = .list ∨ t = .tuple) (l : List Val) (hi : s.elems i = some (t, l))
    (u : BitVec 32) (n : Nat) (hu : Denotes u n) (hn : (n : Int) < 2 ^ (E.A.offBits - 1)) (hf : Fits E (l.length * n)) (inplace : Bool) :
    MakesList s t (List.replicate n l).flatten (arith E .times inplace (.list i) (.num u) s) ∧
    MakesList s t (List.replicate n l).flatten (arith E .times inplace (.num u) (.list i) s) := by
  obtain ⟨a, ha, a1, a2, a3⟩ := elems_obj hs hi
  have hd : t ≠ .dict := by rcases ht with rfl | rfl <;> decide
  have h := Builds.makes (times_ok (E := E) hs ha (n := n) (by omega) (by rw [← a3]; exact hf) (by rw [a1]; exact hd)) (fun _ => times_short)
  rw [a1, a2] at h
  have hp : (0 : Int) ≤ 2 ^ (E.A.offBits - 1) := Int.le_of_lt (Int.pow_pos (by decide))
  have : arithTimes E s (.list i) (.num u) = (times E s i n).bind fun p => some (optList p.1, p.2) := by
    simp only [arithTimes, soff_denotes hu (by omega) hn, if_neg (show ¬ (n : Int) < 0 by omega), ha, Option.bind_eq_bind, Option.bind_some,
      if_neg (show a.type ≠ .dict by rw [a1]; exact hd), Option.pure_def]
  constructor
  · show MakesList _ _ _ (arithTimes E s (.list i) (.num u)); rw [this]; exact h
  · show MakesList _ _ _ (arithTimes E s (.list i) (.num u)); rw [this]; exact h

/-- `a += b` on lists: the object `a` refers to, which every alias of it sees, now has the elements of `b` appended, and is the
result; no other object changes; or the allocator refuses, which is an error and changes nothing. `b` may be `a`. -/
theorem C10_append (s : S) (hs : Ok s) (i j : Nat) (l l' : List Val) (hi : s.elems i = some (.list, l)) (hj : s.elems j = some (.list, l'))
    (hf : Fits E (l.length + l'.length)) :
    ∃ r s', arith E .plus true (.list i) (.list j) s = some (r, s') ∧ s'.objs.length = s.objs.length ∧ (∀ k, k ≠ i → s'.objs[k]? = s.objs[k]?) ∧
      ((r = Val.none ∧ s'.abort = true ∧ s'.objs = s.objs ∧ s.Short) ∨
       (r = .list i ∧ s'.abort = s.abort ∧ s'.elems i = some (.list, l ++ l'))) := by
  obtain ⟨a, ha, a1, a2, a3⟩ := elems_obj hs hi
  obtain ⟨b, hb, b1, b2, b3⟩ := elems_obj hs hj
  obtain ⟨r, s', h1, h2, h3, h4, h5, h6⟩ := append_ok (E := E) hs ha hb (by rw [← a3, ← b3]; exact hf) a1
  rw [a2, b2] at h6
  refine ⟨optList r, s', ?_, h4, h5, ?_⟩
  · simp only [arith, ha, hb, Option.bind_eq_bind, Option.bind_some, a1, b1, LType.readonly, Bool.not_false, Bool.and_self, if_true,
      Option.pure_def, h1]
    rw [if_pos ⟨trivial, by decide⟩]
  · rcases h6 with ⟨rfl, h7⟩ | ⟨rfl, h7⟩
    · exact .inl ⟨rfl, h7.1, h7.2, append_short h1⟩
    · exact .inr ⟨rfl, h7⟩

/-- Other combinations of operands of `+` with a list are errors and change nothing. -/
theorem C10_plus_refused (s : S) (i : Nat) (t : LType) (l : List Val) (b : Val) (inplace : Bool) (hi : s.elems i = some (t, l)) (hb : VOk s b)
    (h : t = .dict ∨ ∀ j l', b = .list j → s.elems j ≠ some (t, l')) :
    arith E .plus inplace (.list i) b s = some (Val.none, s.fail) := by
  obtain ⟨o, ho, hl⟩ := Option.map_eq_some_iff.1 hi
  simp only [Prod.mk.injEq] at hl
  cases b with
  | list j =>
    obtain ⟨o', ho'⟩ := hb
    simp only [arith, ho, ho', Option.bind_eq_bind, Option.bind_some]
    rw [if_neg]; · rfl
    rintro ⟨h1, h2⟩
    rcases h with rfl | h
    · exact h2 hl.1
    · refine h j (o'.data.take o'.size) rfl ?_
      simp only [S.elems, ho', Option.map_some, ← h1, hl.1]
  | _ => rfl

/-! Aliases of a list see what is appended to it, also when it is appended to itself. -/

example : ∃ s, runOps (demoEnv .posix) [.build .list [one, two], .build .tuple [.list 0]] demoStart = some s ∧ s.elems 0 = some (.list, [one, two]) ∧
    (arith (demoEnv .posix) .plus true (.list 0) (.list 0) s).map (fun p => (p.1, p.2.elems 0, p.2.elems 1)) =
      some (.list 0, some (.list, [one, two, one, two]), some (.tuple, [.list 0])) ∧
    (arith (demoEnv .posix) .times false two (.list 0) s).map (fun p => (p.1, p.2.elems 2, p.2.elems 0)) =
      some (.list 2, some (.list, [one, two, one, two]), some (.list, [one, two])) := ⟨_, rfl, rfl, rfl, rfl⟩

/-- Repeating a negative number of times, which is an empty list in the language this one is a subset of, gives `None`. -/
theorem C10_violated_negative : ∃ s, runOps (demoEnv .posix) [.build .list [one]] demoStart = some s ∧ Denotes 0xbf800000 (-1) ∧
    arith (demoEnv .posix) .times false (.list 0) (.num 0xbf800000) s = some (Val.none, s) ∧ s.abort = false := by
  refine ⟨_, rfl, ?_, rfl, rfl⟩
  refine ⟨?_, ?_⟩ <;> decide +kernel

end Snek.Store
