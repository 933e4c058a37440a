import Verif.Model.Frame
import Verif.Spec.Scope
/-!
# C25 Call argument binding

`funcBind` models `snek_func_push`; `Spec.GoodCall` and `Spec.argOf` are the intended rule.
-/
namespace Snek
open Spec

variable {α : Type}

/-- Loop invariant of both parts: the slots from `k` on are filled with `done`, the ones below are untouched. -/
private theorem funcActual_spec (pre : List (Var α)) (w : Var α) (done : List (Var α)) (id : Nat) (v : α) :
    funcActual (pre ++ w :: done) id v pre.length =
      if id ∈ done.map (·.id) then none else some (pre ++ ⟨v, id⟩ :: done) := by
  unfold funcActual
  have e : (pre ++ w :: done).drop (pre.length + 1) = done := by
    rw [← List.drop_drop]; simp
  rw [e]
  have h : (done.any fun v => decide (v.id = id)) = true ↔ id ∈ done.map (·.id) := by
    simp [List.any_eq_true]
  by_cases hm : id ∈ done.map (·.id)
  · rw [if_pos (h.2 hm), if_pos hm]
  · rw [if_neg (fun h' => hm (h.1 h')), if_neg hm]
    simp

/-- Prepending in reverse order: variables for named actuals. -/
def namedVars (named : List (Nat × α)) : List (Var α) := named.map fun p => ⟨p.2, p.1⟩

/-- Variables for positional actuals. -/
def posVars (formals : List Nat) (pos : List α) : List (Var α) := List.zipWith (fun id v => ⟨v, id⟩) formals pos

private theorem bindNamed_spec (f : FuncSig) (npos : Nat) (z : Var α) : ∀ (l : List (Nat × α)) (done : List (Var α)),
    (done.map (·.id)).Nodup →
    match bindNamed f npos l (List.replicate (npos + l.length) z ++ done) with
    | .error _ => ¬ ((∀ p ∈ l, p.1 ∈ f.formals) ∧ ((namedVars l.reverse ++ done).map (·.id)).Nodup)
    | .ok vars => (∀ p ∈ l, p.1 ∈ f.formals) ∧ ((namedVars l.reverse ++ done).map (·.id)).Nodup ∧
        vars = List.replicate npos z ++ (namedVars l.reverse ++ done) := by
  intro l
  induction l with
  | nil => intro done hd; simp [bindNamed, namedVars]; exact hd
  | cons p l ih =>
    intro done hd
    obtain ⟨id, v⟩ := p
    simp only [bindNamed]
    by_cases hf : id ∈ f.formals
    · rw [if_neg (by simpa using hf)]
      have e : List.replicate (npos + ((id, v) :: l).length) z ++ done = List.replicate (npos + l.length) z ++ z :: done := by
        have : npos + ((id, v) :: l).length = (npos + l.length) + 1 := by simp; omega
        rw [this, List.replicate_succ', List.append_assoc]; rfl
      have fa := funcActual_spec (List.replicate (npos + l.length) z) z done id v
      rw [List.length_replicate] at fa
      rw [e, fa]
      by_cases hm : id ∈ done.map (·.id)
      · rw [if_pos hm]
        intro ⟨_, h⟩
        simp only [namedVars, List.reverse_cons, List.map_append, List.map_cons, List.map_nil] at h
        rw [List.append_assoc] at h
        have := (List.nodup_append.1 h).2.1
        simp only [List.cons_append, List.nil_append] at this
        exact (List.nodup_cons.1 this).1 hm
      · rw [if_neg hm]
        have := ih (⟨v, id⟩ :: done) (by simp only [List.map_cons]; exact List.nodup_cons.2 ⟨hm, hd⟩)
        have e2 : namedVars ((id, v) :: l).reverse ++ done = namedVars l.reverse ++ ⟨v, id⟩ :: done := by
          simp [namedVars]
        rw [e2]
        simp only []
        split at this
        · intro ⟨h1, h2⟩
          exact this ⟨fun q hq => h1 q (by simp [hq]), h2⟩
        · obtain ⟨h1, h2, h3⟩ := this
          refine ⟨?_, h2, h3⟩
          intro q hq
          rcases List.mem_cons.1 hq with h | h
          · rw [h]; exact hf
          · exact h1 q h
    · rw [if_pos hf]
      intro ⟨h, _⟩
      exact hf (h (id, v) (by simp))

private theorem posVars_snoc (formals : List Nat) (pos : List α) (v : α) (h : pos.length < formals.length) :
    posVars formals (pos ++ [v]) = posVars formals pos ++ [⟨v, formals[pos.length]?.getD 0⟩] := by
  induction pos generalizing formals with
  | nil =>
    cases formals with
    | nil => simp at h
    | cons a l => simp [posVars]
  | cons p pos ih =>
    cases formals with
    | nil => simp at h
    | cons a l =>
      have := ih l (by simpa using h)
      simp only [posVars] at this ⊢
      simp [this]

private theorem bindPos_spec (f : FuncSig) (z : Var α) : ∀ (l : List α) (done : List (Var α)),
    l.length ≤ f.formals.length → (done.map (·.id)).Nodup →
    match bindPos f l (List.replicate l.length z ++ done) with
    | .error _ => ¬ ((posVars f.formals l.reverse ++ done).map (·.id)).Nodup
    | .ok vars => ((posVars f.formals l.reverse ++ done).map (·.id)).Nodup ∧ vars = posVars f.formals l.reverse ++ done := by
  intro l
  induction l with
  | nil => intro done _ hd; simp [bindPos, posVars]; exact hd
  | cons v l ih =>
    intro done hlen hd
    simp only [List.length_cons] at hlen
    simp only [bindPos]
    have e : List.replicate (v :: l).length z ++ done = List.replicate l.length z ++ z :: done := by
      rw [List.length_cons, List.replicate_succ', List.append_assoc]; rfl
    have fa := funcActual_spec (List.replicate l.length z) z done (f.formals[l.length]?.getD 0) v
    rw [List.length_replicate] at fa
    rw [e, fa]
    have e2 : posVars f.formals (v :: l).reverse ++ done =
        posVars f.formals l.reverse ++ ⟨v, f.formals[l.length]?.getD 0⟩ :: done := by
      rw [List.reverse_cons, posVars_snoc _ _ _ (by simp; omega)]
      simp
    rw [e2]
    by_cases hm : f.formals[l.length]?.getD 0 ∈ done.map (·.id)
    · rw [if_pos hm]
      simp only [List.map_append, List.map_cons]
      intro h
      exact (List.nodup_cons.1 (List.nodup_append.1 h).2.1).1 hm
    · rw [if_neg hm]
      exact ih _ (by omega) (by simp only [List.map_cons]; exact List.nodup_cons.2 ⟨hm, hd⟩)

private theorem posVars_ids (formals : List Nat) (pos : List α) (h : pos.length ≤ formals.length) :
    (posVars formals pos).map (·.id) = formals.take pos.length := by
  induction pos generalizing formals with
  | nil => simp [posVars]
  | cons p pos ih =>
    cases formals with
    | nil => simp at h
    | cons a l =>
      have := ih l (by simpa using h)
      simp only [posVars] at this ⊢
      simp [this]

private theorem namedVars_ids (named : List (Nat × α)) : (namedVars named).map (·.id) = named.map (·.1) := by
  simp [namedVars]

/-- Exactly what the code accepts, for every function and every call. -/
theorem C25_accepts [FrameVal α] (f : FuncSig) (beyond : Nat → Nat) (pos : List α) (named : List (Nat × α)) (vars : List (Var α)) :
    funcBind f beyond pos named = .ok vars ↔
      (pos.length ≤ f.formals.length ∧ (∀ p ∈ named, p.1 ∈ f.formals) ∧ (f.formals.take pos.length ++ named.map (·.1)).Nodup ∧
        vars = posVars f.formals pos ++ namedVars named ∧ ∀ p < f.nrequired, slotId vars beyond p ≠ 0) := by
  unfold funcBind
  by_cases hc : pos.length > f.formals.length
  · simp only []
    rw [if_pos hc]
    constructor
    · intro h; cases h
    · intro h; omega
  · simp only []
    rw [if_neg hc]
    have h1 := bindNamed_spec f pos.length (⟨FrameVal.zero, 0⟩ : Var α) named.reverse [] (by simp)
    rw [List.append_nil, List.length_reverse, List.reverse_reverse, List.append_nil] at h1
    have ids := posVars_ids f.formals pos (by omega)
    have ids2 := namedVars_ids named
    cases hn : bindNamed f pos.length named.reverse (List.replicate (pos.length + named.length) ⟨FrameVal.zero, 0⟩) with
    | error id =>
      rw [hn] at h1
      simp only [List.mem_reverse] at h1
      constructor
      · intro h; cases h
      · rintro ⟨-, h2, h3, -⟩
        exact absurd ⟨h2, by rw [ids2]; exact (List.nodup_append.1 h3).2.1⟩ h1
    | ok w =>
      rw [hn] at h1
      simp only [List.mem_reverse] at h1
      obtain ⟨hk, hnd, hw⟩ := h1
      have h2 := bindPos_spec f (⟨FrameVal.zero, 0⟩ : Var α) pos.reverse (namedVars named) (by simp; omega) hnd
      rw [List.length_reverse, List.reverse_reverse, ← hw] at h2
      simp only [List.map_append, ids, ids2] at h2
      simp only []
      cases hp : bindPos f pos.reverse w with
      | error id =>
        rw [hp] at h2
        constructor
        · intro h; cases h
        · rintro ⟨-, -, h3, -⟩; exact absurd h3 h2
      | ok w' =>
        rw [hp] at h2
        obtain ⟨h3, h4⟩ := h2
        simp only []
        cases hfi : (List.range f.nrequired).find? (fun p => slotId w' beyond p = 0) with
        | some p =>
          have hp1 := List.mem_of_find?_eq_some hfi
          have hp2 := List.find?_some hfi
          simp only [decide_eq_true_eq] at hp2
          constructor
          · intro h; cases h
          · rintro ⟨-, -, -, hv, hr⟩
            rw [hv, ← h4] at hr
            exact absurd hp2 (hr p (List.mem_range.1 hp1))
        | none =>
          rw [List.find?_eq_none] at hfi
          constructor
          · intro h
            cases h
            refine ⟨by omega, hk, h3, h4, ?_⟩
            intro p hp hs
            exact hfi p (List.mem_range.2 hp) (by simpa using hs)
          · rintro ⟨-, -, -, hv, -⟩
            rw [hv, h4]

/-- What an accepted call binds: each parameter exactly the argument given for it, by position or by name, nothing else. -/
theorem C25_bound [FrameVal α] (f : FuncSig) (beyond : Nat → Nat) (pos : List α) (named : List (Nat × α)) (vars : List (Var α))
    (h : funcBind f beyond pos named = .ok vars) (x : Nat) (v : α) :
    (∃ w ∈ vars, w.id = x ∧ w.value = v) ↔ argOf f.formals pos named x v := by
  obtain ⟨hl, -, -, rfl, -⟩ := (C25_accepts f beyond pos named vars).1 h
  unfold argOf
  constructor
  · rintro ⟨w, hw, rfl, rfl⟩
    rcases List.mem_append.1 hw with hw | hw
    · left
      obtain ⟨i, hi, rfl⟩ := List.mem_iff_getElem.1 hw
      refine ⟨i, ?_⟩
      simp only [posVars, List.length_zipWith] at hi
      simp [posVars, List.getElem_zipWith]
    · right
      obtain ⟨p, hp, rfl⟩ := List.mem_map.1 hw
      exact hp
  · rintro (⟨i, h1, h2⟩ | h)
    · refine ⟨⟨v, x⟩, List.mem_append_left _ ?_, rfl, rfl⟩
      obtain ⟨hi1, rfl⟩ := List.getElem?_eq_some_iff.1 h1
      obtain ⟨hi2, rfl⟩ := List.getElem?_eq_some_iff.1 h2
      refine List.mem_iff_getElem.2 ⟨i, by simp [posVars]; omega, by simp [posVars]⟩
    · exact ⟨⟨v, x⟩, List.mem_append_right _ (List.mem_map.2 ⟨(x, v), h, rfl⟩), rfl, rfl⟩

/-- The intended rule decides acceptance whenever the required parameters are passed by position (whether or not enough of
them are), provided the memory just above the new frame reads as zero ids. Missing from the full claim: required parameters
passed by name together with fewer positions, where the code checks the wrong slots (`C25_violated_missing`), and the read
beyond the frame. -/
theorem C25_good_call_partial [FrameVal α] (f : FuncSig) (beyond : Nat → Nat) (pos : List α) (named : List (Nat × α))
    (hf : ∀ x ∈ f.formals, x ≠ 0) (hnd : f.formals.Nodup) (hr : f.nrequired ≤ f.formals.length)
    (hb : ∀ p, beyond p = 0) (hq : f.nrequired ≤ pos.length ∨ named = []) :
    (∃ vars, funcBind f beyond pos named = .ok vars) ↔ GoodCall f.formals f.nrequired pos named := by
  constructor
  · rintro ⟨vars, h⟩
    obtain ⟨h1, h2, h3, rfl, h5⟩ := (C25_accepts f beyond pos named vars).1 h
    refine ⟨h1, h2, h3, ?_⟩
    intro x hx
    rcases hq with hq | hq
    · apply List.mem_append_left
      exact (List.take_subset_take_left _ hq) hx
    · subst hq
      apply List.mem_append_left
      have : f.nrequired ≤ pos.length := by
        apply Nat.le_of_not_lt; intro hlt
        have := h5 pos.length hlt
        apply this
        unfold slotId
        rw [List.getElem?_eq_none (by simp [posVars, namedVars]; omega)]
        exact hb _
      exact (List.take_subset_take_left _ this) hx
  · intro g
    refine ⟨_, (C25_accepts f beyond pos named _).2 ⟨g.count, g.known, g.once, rfl, ?_⟩⟩
    intro p hp
    have hpos : f.nrequired ≤ pos.length := by
      rcases hq with hq | hq
      · exact hq
      · subst hq
        apply Nat.le_of_not_lt; intro hlt
        have hx : f.formals[pos.length]'(by omega) ∈ f.formals.take f.nrequired :=
          List.mem_take_iff_getElem.2 ⟨pos.length, by omega, rfl⟩
        have := g.required _ hx
        simp only [List.map_nil, List.append_nil] at this
        obtain ⟨j, hj, he⟩ := List.mem_take_iff_getElem.1 this
        have := (List.getElem_inj hnd).1 he
        omega
    unfold slotId
    have hlt : p < (posVars f.formals pos).length := by
      simp [posVars]; have := g.count; omega
    rw [List.getElem?_append_left hlt, List.getElem?_eq_getElem hlt]
    simp only [posVars, List.getElem_zipWith]
    exact hf _ (List.getElem_mem _)

/-- Violation 1: `def f(a, b=...)` called as `f(b=3)` is accepted although `a` is missing. -/
theorem C25_violated_missing : ∃ (f : FuncSig) (named : List (Nat × Poly)) (vars : List (Var Poly)),
    funcBind f (fun _ => 0) [] named = .ok vars ∧ 100 ∈ f.formals.take f.nrequired ∧ ¬ ∃ w ∈ vars, w.id = 100 :=
  ⟨⟨[100, 101], 1⟩, [(101, 3)], [⟨3, 101⟩], by decide, by decide, by decide⟩

/-- Violation 2: a call with too few arguments is accepted when the memory after the new frame happens to be non-zero. -/
theorem C25_violated_beyond : ∃ (f : FuncSig) (beyond : Nat → Nat) (vars : List (Var Poly)),
    funcBind f beyond [(7 : Poly)] [] = .ok vars ∧ ¬ GoodCall f.formals f.nrequired [(7 : Poly)] [] := by
  refine ⟨⟨[100, 101], 2⟩, fun _ => 1, [⟨7, 100⟩], by decide, ?_⟩
  intro g
  have := g.required 101 (by decide)
  exact absurd this (by decide)

/-- A call mixing positions and names: `def f(a, b, c=..., d=...)`, `f(1, 2, d=3)`. -/
example : GoodCall [100, 101, 102, 103] 2 [(1 : Poly), 2] [(103, 3)] ∧
    funcBind (⟨[100, 101, 102, 103], 2⟩ : FuncSig) (fun _ => 0) [(1 : Poly), 2] [(103, 3)] =
      .ok [⟨1, 100⟩, ⟨2, 101⟩, ⟨3, 103⟩] :=
  ⟨⟨by decide, by decide, by decide, by decide⟩, by decide⟩

end Snek
