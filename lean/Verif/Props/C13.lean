import Verif.Proofs.DemoStore
import Verif.Spec.Number
/-!
# C13 List storage is always large enough
-/
namespace Snek.Store

variable {E : Env}

/-- After any sequence of container operations from empty memory, whatever the allocator answers: no operation read or wrote
outside an object, every list has at least as many slots as elements and the storage its header claims, and every word in
memory is a number or refers to an object of its kind.

Missing with respect to the full statement: results too large for the offset type (`Allowed` asks that `n` elements need fewer
than 2^16 or 2^32 bytes). `C13_violated_times` and `C13_violated_string` show that the code is wrong there. -/
theorem C13_storage_partial (hA : E.A.Valid) (mem : Nat → Nat → Bool) (ops : List Op) (h : Allowed E ops (S.start mem)) :
    ∃ s, runOps E ops (S.start mem) = some s ∧
      ∀ i o, s.lst i = some o → o.size ≤ o.alloc ∧ o.data.length = o.alloc ∧ ∀ v ∈ o.data, VOk s v := by
  obtain ⟨s, h1, h2, h3⟩ := runOps_ok hA (start_ok mem) (start_rel True mem) ops h
  exact ⟨s, h1, fun i o ho => ⟨(h2.1 i o ho).1, (h2.1 i o ho).2.1, fun v hv => (h3.words trivial i o ho v hv).vok⟩⟩

/-- Growing a list keeps its elements, other objects and the storage invariant, or fails without effect. -/
theorem C13_growth_partial (s : S) (i n : Nat) (t : LType) (l : List Val) (hs : Ok s) (h : s.elems i = some (t, l)) (hn : l.length ≤ n)
    (hf : Fits E n) :
    ∃ ok s', resize E s i n = some (ok, s') ∧ (∀ j, j ≠ i → s'.objs[j]? = s.objs[j]?) ∧
      if ok then ∃ o l', s'.lst i = some o ∧ n ≤ o.alloc ∧ o.data.length = o.alloc ∧ s'.elems i = some (t, l ++ l') ∧ (l ++ l').length = n
      else s'.objs = s.objs ∧ s'.abort = true := by
  unfold S.elems at h
  obtain ⟨o, ho, h⟩ := Option.map_eq_some_iff.1 h
  simp only [Prod.mk.injEq] at h
  obtain ⟨o1, o2, -⟩ := hs.1 i o ho
  have hl : l.length = o.size := by rw [← h.2, List.length_take]; omega
  obtain ⟨b, s', h1, h2, h3, ⟨rfl, h5, o', h6, h7, h8, h9, h10, h11, -⟩ | ⟨rfl, h5, h6⟩⟩ := resize_ok (E := E) ho (hs.1 i o ho) hf
  · have hl' : s'.lst i = some o' := by rw [lst_congr (s := s.setl i o') h6]; exact lst_setl_self ho
    refine ⟨_, s', h1, fun j hj => by rw [h6, List.getElem?_set_ne (Ne.symm hj)], ?_⟩
    simp only [if_true]
    rw [Nat.min_eq_right (by omega), h.2] at h11
    refine ⟨o', (o'.data.take n).drop o.size, hl', h9, h10, ?_, ?_⟩
    · unfold S.elems
      rw [hl']
      simp only [Option.map_some, h7, h.1, h8, Option.some.injEq, Prod.mk.injEq, true_and]
      rw [← h11]
      have : o'.data.take o.size = (o'.data.take n).take o.size := by rw [List.take_take, Nat.min_eq_left (by omega)]
      rw [this, List.take_append_drop]
    · rw [List.length_append, List.length_drop, List.length_take, hl]; omega
  · exact ⟨_, s', h1, fun j hj => by rw [h6], by simp [h5, h6]⟩

/-- The hypotheses are met: a list grows by itself, is repeated and sliced, a tuple holds it. -/
example : Allowed (demoEnv .avr) [.build .list [one, two], .arith .plus true (.list 0) (.list 0), .arith .times false (.list 0) two,
    .build .tuple [.list 0, .list 1], .slice (.list 1) (some one) Option.none (some two), .store (.list 0) one (.list 2)] demoStart := by
  have two_elems : ∀ {s : S} {a b v : Val}, VOk s a → VOk s b → v ∈ [a, b] → VOk s v := by
    intro s a b v ha hb hv
    simp only [List.mem_cons, List.not_mem_nil, or_false] at hv
    rcases hv with rfl | rfl <;> assumption
  refine ⟨fun v hv => two_elems (a := one) (b := two) trivial trivial hv, ⟨by unfold Fits; decide +kernel, by decide⟩, ?_⟩
  intro s1 h1; cases h1
  refine ⟨⟨⟨_, rfl⟩, ⟨_, rfl⟩⟩, ?_, ?_⟩
  · intro x y hx hy; cases hx; cases hy; unfold Fits; decide +kernel
  intro s1 h1; cases h1
  refine ⟨⟨⟨_, rfl⟩, trivial⟩, ⟨?_, trivial⟩, ?_⟩
  · intro x hx; cases hx; unfold Fits; decide +kernel
  intro s1 h1; cases h1
  refine ⟨fun v hv => two_elems (a := .list 0) (b := .list 1) ⟨_, rfl⟩ ⟨_, rfl⟩ hv, ⟨by unfold Fits; decide +kernel, by decide⟩, ?_⟩
  intro s1 h1; cases h1
  refine ⟨⟨_, rfl⟩, ?_, ?_⟩
  · intro n hn; cases hn
    refine ⟨fun i hi => ?_, ?_, ?_, ?_, ?_⟩
    · unfold Fits; decide +kernel
    all_goals decide +kernel
  intro s1 h1; cases h1
  refine ⟨⟨⟨_, rfl⟩, trivial, ⟨_, rfl⟩⟩, ?_, fun _ _ => trivial⟩
  intro o ho hd; cases ho; cases hd

/-- With 16-bit offsets `[0] * 14560` asks for 8 bytes, gets them, and writes beyond them. -/
theorem C13_violated_times :
    runOps (demoEnv .arm) [.build .list [Val.zero], .arith .times false (.list 0) (.num 0x46638000)] demoStart = Option.none ∧
    Spec.Denotes 0x46638000 14560 ∧ (demoEnv .arm).off (listAlloc (demoEnv .arm) 14560 * 4) = 8 := by
  refine ⟨by decide +kernel, ?_, by decide +kernel⟩
  constructor <;> decide +kernel

/-- With 16-bit offsets repeating a string to 65535 bytes or more writes beyond the block it is given. -/
theorem C13_violated_string (h16 : E.A.offBits = 16) (s : S) (hm : ∀ n b, s.mem n b = true) (i n : Nat) (b : List UInt8)
    (hb : s.bytes i = some b) (hn : 65535 ≤ n * b.length) : strTimes E s i n = Option.none := by
  have hl : (List.replicate n b).flatten.length = n * b.length := by simp
  simp [strTimes, hb, newStr, S.ask, hm, hl, Env.off, h16]
  omega

end Snek.Store
