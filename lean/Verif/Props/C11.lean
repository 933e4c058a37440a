import Verif.Proofs.Short
import Verif.Proofs.DemoStore
/-!
# C11 Tuples and strings are immutable

States are those that container operations can produce from empty memory. That the run does not end in a memory fault is C13.
-/
namespace Snek.Store

variable {E : Env}

theorem run_rel {c : S} {mem : Nat → Nat → Bool} {ops : List Op} (h : runOps E ops (S.start mem) = some c) : Rel False c c :=
  (runOps_rel (start_rel False mem) ops h).self

/-- Whatever is done after a string exists, its characters stay the same. -/
theorem C11_strings (mem : Nat → Nat → Bool) (before after : List Op) (s s' : S) (h : runOps E before (S.start mem) = some s)
    (h' : runOps E after s = some s') (i : Nat) (b : List UInt8) (hb : s.bytes i = some b) : s'.bytes i = some b :=
  (runOps_rel (run_rel h) after h').ty.str i b hb

/-- Whatever is done after a tuple exists, it stays a tuple and its elements stay the same. -/
theorem C11_tuples (mem : Nat → Nat → Bool) (before after : List Op) (s s' : S) (h : runOps E before (S.start mem) = some s)
    (h' : runOps E after s = some s') (i : Nat) (l : List Val) (hl : s.elems i = some (.tuple, l)) : s'.elems i = some (.tuple, l) := by
  unfold S.elems at hl ⊢
  obtain ⟨o, ho, hl⟩ := Option.map_eq_some_iff.1 hl
  simp only [Prod.mk.injEq] at hl
  have := (runOps_rel (run_rel h) after h').froz i (.list o) (lst_iff.1 ho) hl.1
  rw [lst_iff.2 this]
  simp only [Option.map_some, hl.1, hl.2]

/-- Assigning to an element of a tuple or string is an error and changes nothing. -/
theorem C11_store_refused (s : S) (lp ip v : Val) (h : (∃ i l, lp = .list i ∧ s.elems i = some (.tuple, l)) ∨ ∃ i, lp = .str i) :
    storeElem E lp ip v s = some s.fail := by
  rcases h with ⟨i, l, rfl, hl⟩ | ⟨i, rfl⟩
  · unfold S.elems at hl
    obtain ⟨o, ho, hl⟩ := Option.map_eq_some_iff.1 hl
    simp only [Prod.mk.injEq] at hl
    simp [storeElem, elemRef, ho, hl.1, LType.readonly]
  · rfl

/-- Augmented assignment to an element of a tuple or string, likewise. -/
theorem C11_augment_refused (s : S) (op : BinOp) (lp ip v : Val)
    (h : (∃ i l, lp = .list i ∧ s.elems i = some (.tuple, l)) ∨ ∃ i, lp = .str i) :
    augElem E op lp ip v s = some s.fail := by
  rcases h with ⟨i, l, rfl, hl⟩ | ⟨i, rfl⟩
  · unfold S.elems at hl
    obtain ⟨o, ho, hl⟩ := Option.map_eq_some_iff.1 hl
    simp only [Prod.mk.injEq] at hl
    simp [augElem, elemRef, ho, hl.1, LType.readonly]
  · rfl

/-- Deleting an element of a tuple or string, likewise. -/
theorem C11_del_refused (s : S) (lp ip : Val) (h : (∃ i l, lp = .list i ∧ s.elems i = some (.tuple, l)) ∨ ∃ i, lp = .str i) :
    delElem E lp ip s = some s.fail := by
  rcases h with ⟨i, l, rfl, hl⟩ | ⟨i, rfl⟩
  · unfold S.elems at hl
    obtain ⟨o, ho, hl⟩ := Option.map_eq_some_iff.1 hl
    simp only [Prod.mk.injEq] at hl
    have hd : o.type ≠ .dict := by rw [hl.1]; decide
    simp only [delElem, del, ref, ho, Option.bind_eq_bind, Option.bind_some, if_neg hd, Option.pure_def]
    generalize (if (soff E ip).1 < 0 then E.off (o.size + (2 ^ E.A.offBits - E.off (-(soff E ip).1).toNat)) else (soff E ip).1.toNat) = k
    generalize (soff E ip).2 = e
    split
    · cases e <;> rfl
    · have : ∀ e : Bool, (if e = true then s.fail else s).lst i = some o := by intro e; cases e <;> exact ho
      simp only [Option.bind_some, this, hl.1]
      cases e <;> rfl
  · rfl

/-- `t += u` on tuples leaves the object `t` refers to alone and yields another one holding the concatenation (the other outcome is
an error because the allocator refuses). -/
theorem C11_tuple_augmented (s : S) (hs : Ok s) (i j : Nat) (l l' : List Val) (hi : s.elems i = some (.tuple, l))
    (hj : s.elems j = some (.tuple, l')) (hf : Fits E (l.length + l'.length)) :
    ∃ r s', arith E .plus true (.list i) (.list j) s = some (r, s') ∧ s.objs <+: s'.objs ∧
      ((r = Val.none ∧ s'.abort = true ∧ s.Short) ∨
       ∃ k, r = .list k ∧ s'.abort = s.abort ∧ s'.elems k = some (.tuple, l ++ l') ∧ (s.objs.length ≤ k ∨ l ++ l' = [])) := by
  unfold S.elems at hi hj
  obtain ⟨a, ha, hi⟩ := Option.map_eq_some_iff.1 hi
  obtain ⟨b, hb, hj⟩ := Option.map_eq_some_iff.1 hj
  simp only [Prod.mk.injEq] at hi hj
  obtain ⟨a1, a2, -⟩ := hs.1 i a ha
  obtain ⟨b1, b2, -⟩ := hs.1 j b hb
  have la : l.length = a.size := by rw [← hi.2, List.length_take]; omega
  have lb : l'.length = b.size := by rw [← hj.2, List.length_take]; omega
  obtain ⟨r, s', h1, h2, h3, h4⟩ := plus_ok (E := E) hs ha hb (by rw [← la, ← lb]; exact hf) (by rw [hi.1]; decide)
  rw [hi.1, hi.2, hj.2] at h4
  refine ⟨optList r, s', ?_, h2.pre, ?_⟩
  · simp [arith, ha, hb, hi.1, hj.1, LType.readonly, h1]
  · rcases h4 with ⟨rfl, h5⟩ | ⟨k, rfl, h5, h6, h7⟩
    · exact .inl ⟨rfl, h5, plus_short h1⟩
    · exact .inr ⟨k, rfl, h5, h6, h7.imp (fun h => by omega) (fun h => h.2.1)⟩

/-- `s += t` on strings, likewise. -/
theorem C11_string_augmented (s : S) (i j : Nat) (a b : List UInt8) (hi : s.bytes i = some a) (hj : s.bytes j = some b)
    (hf : a.length + b.length + 1 < 2 ^ E.A.offBits) :
    ∃ r s', arith E .plus true (.str i) (.str j) s = some (r, s') ∧ s.objs <+: s'.objs ∧
      ((r = Val.none ∧ s'.abort = true ∧ s.mem s.clock (a.length + b.length + 1) = false) ∨
       (r = .str s.objs.length ∧ s'.abort = s.abort ∧ s'.bytes s.objs.length = some (a ++ b))) := by
  have hf' : (a ++ b).length + 1 < 2 ^ E.A.offBits := by rw [List.length_append]; omega
  simp only [arith, strCat, hi, hj, Option.bind_eq_bind, Option.bind_some, newStr, off_lt hf', Nat.lt_irrefl, if_false]
  cases hm : (s.ask ((a ++ b).length + 1)).1 with
  | false =>
    refine ⟨_, _, rfl, List.prefix_refl _, .inl ⟨rfl, ?_, by rw [← List.length_append]; exact hm⟩⟩
    simp only [S.ask] at hm ⊢; rw [hm]; simp
  | true =>
    refine ⟨_, _, rfl, List.prefix_append _ _, .inr ⟨rfl, ?_, ?_⟩⟩
    · simp only [S.ask, S.push] at hm ⊢; rw [hm]; simp
    · rw [bytes_iff]; simp [S.push]

/-! A run with a tuple, a string and a list that is changed; the tuple also contains the list. -/

example : ∃ s s', runOps (demoEnv .posix) [.build .list [one], .build .tuple [.list 0, one]] demoStart = some s ∧
    s.elems 1 = some (.tuple, [.list 0, one]) ∧
    runOps (demoEnv .posix) [.store (.list 0) Val.zero (.list 1), .arith .plus true (.list 1) (.list 1), .store (.list 1) Val.zero one,
      .del (.list 1) Val.zero, .arith .plus true (.list 0) (.list 0)] s = some s' ∧
    s'.elems 0 = some (.list, [.list 1, .list 1]) ∧ s'.elems 2 = some (.tuple, [.list 0, one, .list 0, one]) := by
  refine ⟨_, _, rfl, rfl, rfl, ?_, ?_⟩ <;> decide +kernel

end Snek.Store
