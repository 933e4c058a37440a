import Verif.Proofs.DemoStore
import Verif.Proofs.StoreIdx
/-!
# C05 Indexing addresses exactly the elements that exist

`Ok` holds in every state a program reaches (C13). An index is a number denoting an integer in the range of offsets; what happens
with others is in the last part.
-/
namespace Snek.Store
open Spec

variable {E : Env}

/-- Reading an element of a list or tuple: the element the index names, or an error if there is none; nothing changes. -/
theorem C05_list_get (hA : E.A.Valid) (s : S) (hs : Ok s) (i : Nat) (t : LType) (l : List Val) (hl : s.elems i = some (t, l))
    (ht : t = .list ∨ t = .tuple) (hb : l.length < 2 ^ E.A.offBits) (u : BitVec 32) (k : Int) (hu : Denotes u k)
    (h1 : -(2 ^ (E.A.offBits - 1)) ≤ k) (h2 : k < 2 ^ (E.A.offBits - 1)) :
    index E s (.list i) (.num u) = some (match elemAt l k with | some v => (v, s) | Option.none => (Val.none, s.fail)) := by
  obtain ⟨o, ho, hl⟩ := Option.map_eq_some_iff.1 hl
  simp only [Prod.mk.injEq] at hl
  obtain ⟨o1, o2, -⟩ := hs.1 i o ho
  have hd : o.type ≠ .dict := by rw [hl.1]; rcases ht with rfl | rfl <;> decide
  have hlen : l.length = o.size := by rw [← hl.2, List.length_take]; omega
  obtain ⟨p1, p2⟩ := elemAt_pos (E := E) l hA hb h1
  rw [hlen] at p1 p2
  simp only [index, get, ref_seq ho hd, soff_denotes hu h1 h2, Option.bind_eq_bind, Option.bind_some, Option.pure_def, Bool.false_eq_true, if_false]
  by_cases hc : o.size ≤ pos E o.size k
  · rw [if_pos hc, p2 hc]
  · rw [if_neg hc]
    have hlt : pos E o.size k < o.data.length := by omega
    simp only [ho, Option.bind_some]
    rw [(p1 (by omega)).1, ← hl.2, List.getElem?_take_of_lt (by omega), List.getElem?_eq_getElem hlt]
    rfl

/-- Reading a character of a string: a new string of the one character the index names (or an error because the allocator
refuses its two bytes), or an error. -/
theorem C05_string_get (hA : E.A.Valid) (s : S) (i : Nat) (b : List UInt8) (hi : s.bytes i = some b)
    (hb : b.length < 2 ^ E.A.offBits) (u : BitVec 32) (k : Int) (hu : Denotes u k)
    (h1 : -(2 ^ (E.A.offBits - 1)) ≤ k) (h2 : k < 2 ^ (E.A.offBits - 1)) :
    match elemAt b k with
    | some c => ∃ r s', index E s (.str i) (.num u) = some (r, s') ∧ s.objs <+: s'.objs ∧
        ((r = Val.none ∧ s'.abort = true ∧ s.mem s.clock 2 = false) ∨ ∃ n, r = .str n ∧ s'.bytes n = some [c] ∧ s'.abort = s.abort)
    | Option.none => index E s (.str i) (.num u) = some (Val.none, s.fail) := by
  obtain ⟨p1, p2⟩ := elemAt_pos (E := E) b hA hb h1
  have hx : index E s (.str i) (.num u) = if b.length ≤ pos E b.length k then some (Val.none, s.fail) else
      ((b ++ [0])[pos E b.length k]?).bind fun c => newStr E s [c] := by
    simp only [index, strGet, hi, soff_denotes hu h1 h2, Option.bind_eq_bind, Option.bind_some, Option.pure_def, Bool.false_eq_true, if_false, pos]
    rfl
  rw [hx]
  by_cases hc : b.length ≤ pos E b.length k
  · rw [p2 hc, if_pos hc]
  · have hlt : pos E b.length k < b.length := by omega
    rw [(p1 hlt).1, if_neg hc, List.getElem?_append_left hlt, List.getElem?_eq_getElem hlt]
    simp only [Option.bind_some]
    have hf : [b[pos E b.length k]].length + 1 < 2 ^ E.A.offBits := by
      have := two_lt hA; simp only [List.length_cons, List.length_nil]; omega
    simp only [newStr, off_lt hf, Nat.lt_irrefl, if_false]
    cases hm : (s.ask ([b[pos E b.length k]].length + 1)).1 with
    | false =>
      refine ⟨_, _, rfl, List.prefix_refl _, .inl ⟨rfl, ?_, hm⟩⟩
      simp only [S.ask] at hm ⊢; rw [hm]; simp
    | true =>
      refine ⟨_, _, rfl, List.prefix_append _ _, .inr ⟨_, rfl, ?_, ?_⟩⟩
      · rw [bytes_iff]; simp [S.push, S.ask]
      · simp only [S.ask, S.push] at hm ⊢; rw [hm]; simp

/-- Writing an element of a list: exactly the element the index names is replaced, or an error is raised and nothing changes. -/
theorem C05_list_store (hA : E.A.Valid) (s : S) (hs : Ok s) (i : Nat) (l : List Val) (hl : s.elems i = some (.list, l))
    (hb : l.length < 2 ^ E.A.offBits) (u : BitVec 32) (k : Int) (hu : Denotes u k)
    (h1 : -(2 ^ (E.A.offBits - 1)) ≤ k) (h2 : k < 2 ^ (E.A.offBits - 1)) (v : Val) :
    match elemAt l k with
    | some _ => ∃ s', storeElem E (.list i) (.num u) v s = some s' ∧ s'.elems i = some (.list, setAt l k v) ∧ s'.abort = s.abort ∧
        ∀ j, j ≠ i → s'.objs[j]? = s.objs[j]?
    | Option.none => storeElem E (.list i) (.num u) v s = some s.fail := by
  obtain ⟨o, ho, hl⟩ := Option.map_eq_some_iff.1 hl
  simp only [Prod.mk.injEq] at hl
  obtain ⟨o1, o2, -⟩ := hs.1 i o ho
  have hd : o.type ≠ .dict := by rw [hl.1]; decide
  have hlen : l.length = o.size := by rw [← hl.2, List.length_take]; omega
  obtain ⟨p1, p2⟩ := elemAt_pos (E := E) l hA hb h1
  rw [hlen] at p1 p2
  have hx : storeElem E (.list i) (.num u) v s = if o.size ≤ pos E o.size k then some s.fail else setSlot s i (pos E o.size k) v := by
    simp only [storeElem, elemRef, ho, ref_seq ho hd, soff_denotes hu h1 h2, hl.1, LType.readonly, Option.bind_eq_bind, Option.bind_some,
      Option.pure_def, Bool.false_eq_true, if_false]
    by_cases hc : o.size ≤ pos E o.size k
    · simp only [if_pos hc, Option.bind_some]
    · simp only [if_neg hc, Option.bind_some]
  rw [hx]
  by_cases hc : o.size ≤ pos E o.size k
  · rw [if_pos hc, p2 hc]
  · have hlt : pos E o.size k < o.size := by omega
    obtain ⟨q1, q2⟩ := p1 hlt
    rw [if_neg hc, q1, List.getElem?_eq_getElem (by omega)]
    obtain ⟨o', w1, w2, w3, w4, w5⟩ := setSlot_ok hs ho hlt v
    refine ⟨_, w1, ?_, rfl, fun j hj => ?_⟩
    · rw [q2, ← hl.2]; simp only [S.elems, lst_setl_self ho, Option.map_some, w3, w4, w5, hl.1, List.take_set]
    · simp only [S.setl]; rw [List.getElem?_set_ne (Ne.symm hj)]

/-- Deleting an element of a list: exactly that element disappears, or an error is raised and nothing changes. -/
theorem C05_list_del (hA : E.A.Valid) (s : S) (hs : Ok s) (i : Nat) (l : List Val) (hl : s.elems i = some (.list, l))
    (hb : l.length < 2 ^ E.A.offBits) (u : BitVec 32) (k : Int) (hu : Denotes u k)
    (h1 : -(2 ^ (E.A.offBits - 1)) ≤ k) (h2 : k < 2 ^ (E.A.offBits - 1)) :
    match elemAt l k with
    | some _ => ∃ s', delElem E (.list i) (.num u) s = some s' ∧ s'.elems i = some (.list, delAt l k) ∧ s'.abort = s.abort ∧
        ∀ j, j ≠ i → s'.objs[j]? = s.objs[j]?
    | Option.none => delElem E (.list i) (.num u) s = some s.fail := by
  obtain ⟨o, ho, hl⟩ := Option.map_eq_some_iff.1 hl
  simp only [Prod.mk.injEq] at hl
  obtain ⟨o1, o2, -⟩ := hs.1 i o ho
  have hd : o.type ≠ .dict := by rw [hl.1]; decide
  have hlen : l.length = o.size := by rw [← hl.2, List.length_take]; omega
  have hD : pos E l.length k < l.length → delAt l k = l.eraseIdx (pos E l.length k) := by
    intro hh
    obtain ⟨e1, e2, e3⟩ := pos_eq hA hb h1
    unfold delAt
    by_cases h0 : 0 ≤ k
    · rw [if_pos h0, e1 h0]
    · rw [if_neg h0]
      by_cases h3 : 0 ≤ (l.length : Int) + k
      · rw [e2 (by omega) h3]
      · have := e3 (by omega) (by omega); omega
  obtain ⟨p1, p2⟩ := elemAt_pos (E := E) l hA hb h1
  rw [hlen] at p1 p2 hD
  generalize hp : pos E o.size k = p at *
  have hx : delElem E (.list i) (.num u) s = if o.size ≤ p then some s.fail else
      (mmove o.data p (p + 1) (o.size - p - 1)).bind fun d => some (s.setl i { o with size := o.size - 1, data := d }) := by
    simp only [delElem, del, ref_seq ho hd, soff_denotes hu h1 h2, Option.bind_eq_bind, Option.bind_some,
      Option.pure_def, Bool.false_eq_true, if_false, hp]
    by_cases hc : o.size ≤ p
    · simp only [if_pos hc]
    · simp only [if_neg hc, ho, Option.bind_some, hl.1]
  rw [hx]
  by_cases hc : o.size ≤ p
  · rw [if_pos hc, p2 hc]
  · have hlt : p < o.size := by omega
    rw [if_neg hc, (p1 hlt).1, List.getElem?_eq_getElem (by omega)]
    simp only [mmove, if_pos (show p + 1 + (o.size - p - 1) ≤ o.data.length ∧ p + (o.size - p - 1) ≤ o.data.length by omega), Option.bind_some]
    refine ⟨_, rfl, ?_, rfl, fun j hj => ?_⟩
    · rw [hD hlt, ← hl.2]
      simp only [S.elems, lst_setl_self ho, Option.map_some, hl.1]
      congr 2
      have e1 : (o.data.take p).length = p := by rw [List.length_take]; omega
      have e2 : ((o.data.drop (p + 1)).take (o.size - p - 1)).length = o.size - p - 1 := by rw [List.length_take, List.length_drop]; omega
      rw [List.take_append_of_le_length (by rw [List.length_append, e1, e2]; omega), List.take_of_length_le (by rw [List.length_append, e1, e2]; omega)]
      rw [List.eraseIdx_eq_take_drop_succ, List.take_take, List.drop_take, Nat.min_eq_left (by omega)]
      congr 2
    · simp only [S.setl]; rw [List.getElem?_set_ne (Ne.symm hj)]

/-- Whatever value is used as index, reading does not leave the storage and changes no object. -/
theorem C05_get_safe (hA : E.A.Valid) (s : S) (hs : Ok s) (a p : Val) (ha : VOk s a) :
    ∃ r s', index E s a p = some (r, s') ∧ s.objs <+: s'.objs := by
  obtain ⟨r, s', h1, -⟩ := index_ok (E := E) hA hs (b := p) ha
  refine ⟨r, s', h1, ?_⟩
  unfold index at h1
  split at h1
  · rename_i i
    obtain ⟨o, ho⟩ := ha
    simp only [get, Option.bind_eq_bind, Option.pure_def] at h1
    obtain ⟨⟨q, s2⟩, e1, h1⟩ := Option.bind_eq_some_iff.1 h1
    have hobj : s2.objs = s.objs := by
      by_cases hd : o.type = .dict
      · simp only [ref, ho, Option.bind_eq_bind, Option.bind_some, if_pos hd, Option.pure_def] at e1
        obtain ⟨k, -, e1⟩ := Option.bind_eq_some_iff.1 e1
        have e2 : ∃ f : Bool, (if f = true then some (some (k + 1), s) else if (!false) = true then some (Option.none, s.fail)
            else if E.isMut s.objs p = true then some (Option.none, s.fail) else Option.none) = some (q, s2) := by
          split at e1
          · obtain ⟨f, -, e1⟩ := Option.bind_eq_some_iff.1 e1
            refine ⟨f, ?_⟩
            cases f <;> exact e1
          · exact ⟨false, e1⟩
        obtain ⟨f, e1⟩ := e2
        cases f
        · simp only [Bool.false_eq_true, if_false, Bool.not_false, if_true, Option.some.injEq, Prod.mk.injEq] at e1
          rw [← e1.2]; rfl
        · simp only [if_true, Option.some.injEq, Prod.mk.injEq] at e1
          rw [← e1.2]
      · rw [ref_seq ho hd] at e1
        generalize (soff E p).2 = e at e1
        simp only [Option.some.injEq] at e1
        split at e1 <;> (cases e1; cases e <;> rfl)
    cases q with
    | none => simp only [Option.some.injEq, Prod.mk.injEq] at h1; rw [← h1.2, hobj]; exact List.prefix_refl _
    | some k =>
      obtain ⟨o2, -, h1⟩ := Option.bind_eq_some_iff.1 h1
      obtain ⟨v, -, h1⟩ := Option.bind_eq_some_iff.1 h1
      simp only [Option.some.injEq, Prod.mk.injEq] at h1; rw [← h1.2, hobj]; exact List.prefix_refl _
  · rename_i i
    simp only [strGet, Option.bind_eq_bind, Option.pure_def] at h1
    obtain ⟨b, -, h1⟩ := Option.bind_eq_some_iff.1 h1
    generalize (if (soff E p).1 < 0 then E.off (b.length + (2 ^ E.A.offBits - E.off (-(soff E p).1).toNat)) else (soff E p).1.toNat) = k at h1
    generalize hs2 : (if (soff E p).2 = true then s.fail else s) = s2 at h1
    have hobj : s2.objs = s.objs := by rw [← hs2]; split <;> rfl
    split at h1
    · cases h1; rw [← hobj]; exact List.prefix_refl _
    · obtain ⟨c, -, h1⟩ := Option.bind_eq_some_iff.1 h1
      simp only [newStr] at h1
      split at h1
      · cases h1; rw [← hobj]; exact List.prefix_refl _
      · split at h1
        · cases h1
        · cases h1; rw [← hobj]; exact List.prefix_append _ _
  · cases h1; exact List.prefix_refl _

/-- Whatever value is used as index, writing an element of a list does not leave the storage, replaces at most one of its
elements and changes nothing else. -/
theorem C05_store_safe (s : S) (hs : Ok s) (i : Nat) (l : List Val) (hl : s.elems i = some (.list, l)) (p v : Val) :
    ∃ s', storeElem E (.list i) p v s = some s' ∧ (∀ j, j ≠ i → s'.objs[j]? = s.objs[j]?) ∧
      (s'.elems i = some (.list, l) ∨ ∃ k, k < l.length ∧ s'.elems i = some (.list, l.set k v)) := by
  obtain ⟨o, ho, hl⟩ := Option.map_eq_some_iff.1 hl
  simp only [Prod.mk.injEq] at hl
  obtain ⟨o1, o2, -⟩ := hs.1 i o ho
  have hd : o.type ≠ .dict := by rw [hl.1]; decide
  have hlen : l.length = o.size := by rw [← hl.2, List.length_take]; omega
  simp only [storeElem, elemRef, ho, ref_seq ho hd, hl.1, LType.readonly, Option.bind_eq_bind, Option.bind_some,
      Option.pure_def, Bool.false_eq_true, if_false]
  generalize pos E o.size (soff E p).1 = k
  generalize hs2 : (if (soff E p).2 = true then s.fail else s) = s2
  have hobj : s2.objs = s.objs := by rw [← hs2]; split <;> rfl
  have ho2 : s2.lst i = some o := by rw [lst_congr hobj]; exact ho
  have hok2 : Ok s2 := by rw [← hs2]; split <;> first | exact hs.fail | exact hs
  have he : s2.elems i = some (.list, l) := by simp only [S.elems, ho2, Option.map_some, hl]
  by_cases hc : o.size ≤ k
  · simp only [if_pos hc, Option.bind_some]
    refine ⟨_, rfl, fun j _ => ?_, .inl he⟩
    show s2.objs[j]? = _
    rw [hobj]
  · simp only [if_neg hc, Option.bind_some]
    obtain ⟨o', w1, w2, w3, w4, w5⟩ := setSlot_ok hok2 ho2 (k := k) (by omega) v
    refine ⟨_, w1, fun j hj => ?_, .inr ⟨k, by omega, ?_⟩⟩
    · simp only [S.setl]; rw [List.getElem?_set_ne (Ne.symm hj), hobj]
    · simp only [S.elems, lst_setl_self ho2, Option.map_some, w3, w4, w5, hl.1, ← hl.2, List.take_set]

/-! A list with three elements, read and written from both ends. -/

example : ∃ s, runOps (demoEnv .posix) [.build .list [one, two, .list 0]] demoStart = some s ∧ s.elems 0 = some (.list, [one, two, .list 0]) ∧
    Denotes 0xbf800000 (-1) ∧ index (demoEnv .posix) s (.list 0) (.num 0xbf800000) = some (.list 0, s) ∧
    (storeElem (demoEnv .posix) (.list 0) (.num 0xbf800000) one s).map (·.elems 0) = some (some (.list, [one, two, one])) ∧
    (delElem (demoEnv .posix) (.list 0) (.num 0) s).map (·.elems 0) = some (some (.list, [two, .list 0])) ∧
    (delElem (demoEnv .posix) (.list 0) (.num 0x40400000) s).map (·.abort) = some true := by
  refine ⟨_, rfl, ?_, ?_, ?_, ?_, ?_, ?_⟩ <;> first | rfl | (refine ⟨?_, ?_⟩ <;> decide +kernel)

/-! Indices that are not integers. -/

/-- A fractional index is accepted: `l[1.5]` is `l[1]`. -/
theorem C05_violated_fraction : ∃ s, runOps (demoEnv .posix) [.build .list [one, two]] demoStart = some s ∧
    index (demoEnv .posix) s (.list 0) (.num 0x3fc00000) = some (two, s) ∧ s.abort = false := ⟨_, rfl, rfl, rfl⟩

/-- A store with an index that is not a number reports an error and overwrites element 0 all the same. -/
theorem C05_violated_store : ∃ s s', runOps (demoEnv .posix) [.build .list [one]] demoStart = some s ∧
    storeElem (demoEnv .posix) (.list 0) Val.none two s = some s' ∧ s'.abort = true ∧ s'.elems 0 = some (.list, [two]) := ⟨_, _, rfl, rfl, rfl, rfl⟩

/-- So does `del`: it removes element 0. -/
theorem C05_violated_del : ∃ s s', runOps (demoEnv .posix) [.build .list [one, two]] demoStart = some s ∧
    delElem (demoEnv .posix) (.list 0) Val.none s = some s' ∧ s'.abort = true ∧ s'.elems 0 = some (.list, [two]) := ⟨_, _, rfl, rfl, rfl, rfl⟩

end Snek.Store
