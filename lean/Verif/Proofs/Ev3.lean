import Verif.Model.Ev3
/-!
# Lemmas about the files of the LEGO EV3
-/
namespace Snek.Ev3

/-! ## Time -/

/-- `s'` is a later moment than `s`: the schedule has been consumed and its events have happened. -/
def Later (s s' : Sys) : Prop := ∃ used, s.sched = used ++ s'.sched ∧ s'.world = (used.flatMap Slot.evs).foldl event s.world

theorem Later.refl (s : Sys) : Later s s := ⟨[], rfl, rfl⟩

theorem Later.trans {a b c : Sys} (h : Later a b) (h' : Later b c) : Later a c := by
  obtain ⟨u, e1, e2⟩ := h
  obtain ⟨v, e3, e4⟩ := h'
  refine ⟨u ++ v, by rw [e1, e3, List.append_assoc], ?_⟩
  rw [e4, e2, List.flatMap_append, List.foldl_append]

/-- Device `n` is attached and its file `name` reads `t`. -/
def Now (w : World) (n : Nat) (name t : Text) : Prop := ∃ d, w[n]? = some d ∧ d.alive = true ∧ d.attr name = some t

/-- Devices keep their port and their driver, and do not come back. -/
def Same (w w' : World) : Prop :=
  ∀ (n : Nat) (d : Dev), w[n]? = some d → ∃ d', w'[n]? = some d' ∧ d'.address = d.address ∧ d'.driver = d.driver

theorem Same.refl (w : World) : Same w w := fun _ d h => ⟨d, h, rfl, rfl⟩

theorem Same.trans {a b c : World} (h : Same a b) (h' : Same b c) : Same a c := by
  intro n d hd
  obtain ⟨d1, e1, a1, b1⟩ := h n d hd
  obtain ⟨d2, e2, a2, b2⟩ := h' n d1 e1
  exact ⟨d2, e2, a2.trans a1, b2.trans b1⟩

theorem same_event (w : World) (e : Ev) : Same w (event w e) := by
  intro n d hd
  cases e with
  | plug a dr f =>
    refine ⟨d, ?_, rfl, rfl⟩
    unfold event
    have := (List.getElem?_eq_some_iff.1 hd).1
    rw [List.getElem?_append_left this]; exact hd
  | unplug m =>
    simp only [event, List.getElem?_modify]
    rw [hd]
    by_cases h : m = n <;> simp [h]
  | put m f t =>
    simp only [event, List.getElem?_modify]
    rw [hd]
    by_cases h : m = n <;> simp [h]

theorem same_events (es : List Ev) : ∀ w, Same w (es.foldl event w) := by
  induction es with
  | nil => intro w; exact Same.refl w
  | cons e es ih => intro w; exact (same_event w e).trans (ih _)

theorem Later.same {s s' : Sys} (h : Later s s') : Same s.world s'.world := by
  obtain ⟨u, _, e⟩ := h
  rw [e]; exact same_events _ _

/-! ## System calls -/

/-- Time passes; nothing is opened, closed, written or reported. -/
structure Pass (s s' : Sys) : Prop where
  later : Later s s'
  fds : s'.fds = s.fds
  err : s'.err = s.err
  wrote : s'.wrote = s.wrote

theorem Pass.refl (s : Sys) : Pass s s := ⟨Later.refl s, rfl, rfl, rfl⟩

theorem Pass.trans {a b c : Sys} (h : Pass a b) (h' : Pass b c) : Pass a c :=
  ⟨h.later.trans h'.later, h'.fds.trans h.fds, h'.err.trans h.err, h'.wrote.trans h.wrote⟩

theorem pass_call (s : Sys) : Pass s s.call.2 := by
  unfold Sys.call
  split
  · exact Pass.refl s
  · rename_i sl r hs
    exact ⟨⟨[sl], by simp [hs], by simp⟩, rfl, rfl, rfl⟩

theorem openDev_spec (s : Sys) (n : Nat) :
    (∀ e s', s.openDev n = (.error e, s') → Pass s s') ∧
    (∀ u s', s.openDev n = (.ok u, s') → ∃ s1, Pass s s1 ∧ s' = { s1 with fds := .dev n :: s1.fds } ∧ ∃ d, s'.world[n]? = some d ∧ d.alive = true) := by
  have h := pass_call s
  unfold Sys.openDev
  generalize s.call = c at *
  obtain ⟨sl, s1⟩ := c
  dsimp only at *
  split
  · constructor
    · intro e s' he; cases he; exact h
    · intro u s' he; cases he
  · split
    · rename_i d hd
      by_cases ha : d.alive = true
      · rw [if_pos ha]
        constructor
        · intro e s' he; cases he
        · intro u s' he; cases he; exact ⟨s1, h, rfl, d, hd, ha⟩
      · rw [if_neg ha]
        constructor
        · intro e s' he; cases he; exact h
        · intro u s' he; cases he
    · constructor
      · intro e s' he; cases he; exact h
      · intro u s' he; cases he

theorem openFile_spec (s : Sys) (n : Nat) (name : Text) :
    (∀ e s', s.openFile n name = (.error e, s') → Pass s s') ∧
    (∀ u s', s.openFile n name = (.ok u, s') → ∃ s1, Pass s s1 ∧ s' = { s1 with fds := .file n name :: s1.fds }) := by
  have h := pass_call s
  unfold Sys.openFile
  generalize s.call = c at *
  obtain ⟨sl, s1⟩ := c
  dsimp only at *
  split
  · constructor
    · intro e s' he; cases he; exact h
    · intro u s' he; cases he
  · split
    · rename_i d hd
      split
      · constructor
        · intro e s' he; cases he
        · intro u s' he; cases he; exact ⟨s1, h, rfl⟩
      · constructor
        · intro e s' he; cases he; exact h
        · intro u s' he; cases he
    · constructor
      · intro e s' he; cases he; exact h
      · intro u s' he; cases he

theorem readNow_spec {s : Sys} {n : Nat} {name : Text} {size : Nat} {t : Text} (h : s.readNow n name size = .ok t) :
    ∃ t', Now s.world n name t' ∧ t = t'.take size := by
  unfold Sys.readNow at h
  split at h
  · rename_i d hd
    split at h
    · rename_i ha
      split at h
      · rename_i t' ht
        cases h
        exact ⟨t', ⟨d, hd, ha, ht⟩, rfl⟩
      · cases h
    · cases h
  · cases h

theorem readLoop_spec (n : Nat) (name : Text) (size : Nat) : ∀ (sc : List Slot) (s : Sys), s.sched = sc →
    Pass s (readLoop n name size sc s).2 ∧
      ∀ t, (readLoop n name size sc s).1 = .ok t → ∃ t', Now (readLoop n name size sc s).2.world n name t' ∧ t = t'.take size := by
  intro sc
  induction sc with
  | nil =>
    intro s hs
    have e : { s with sched := [] } = s := by cases s; cases hs; rfl
    unfold readLoop
    rw [e]
    exact ⟨Pass.refl s, fun t ht => readNow_spec ht⟩
  | cons sl r ih =>
    intro s hs
    unfold readLoop
    dsimp only
    have hp : Pass s { s with sched := r, world := sl.evs.foldl event s.world } :=
      ⟨⟨[sl], by simp [hs], by simp⟩, rfl, rfl, rfl⟩
    split
    · have := ih { s with sched := r, world := sl.evs.foldl event s.world } rfl
      exact ⟨hp.trans this.1, this.2⟩
    · exact ⟨hp, fun t ht => by cases ht⟩
    · exact ⟨hp, fun t ht => readNow_spec ht⟩

/-- `sysfs_read`: time passes, and the text is the beginning of what the file shows at the end. -/
theorem read_spec (s : Sys) (n : Nat) (name : Text) (size : Nat) :
    Pass s (s.read n name size).2 ∧
      ∀ t, (s.read n name size).1 = .ok t → ∃ t', Now (s.read n name size).2.world n name t' ∧ t = t'.take size := by
  have h := openFile_spec s n name
  unfold Sys.read
  cases hc : s.openFile n name with
  | mk r s1 =>
    cases r with
    | error e => exact ⟨h.1 e s1 hc, fun t ht => by cases ht⟩
    | ok u =>
      obtain ⟨s2, hp, e⟩ := h.2 u s1 hc
      have hl := readLoop_spec n name size s1.sched s1 rfl
      dsimp only
      generalize readLoop n name size s1.sched s1 = x at *
      obtain ⟨r, s3⟩ := x
      dsimp only at *
      refine ⟨hp.trans ⟨?_, ?_, ?_, ?_⟩, hl.2⟩
      · have := hl.1.later
        rw [e] at this
        exact this
      · unfold Sys.close
        dsimp only
        rw [hl.1.fds, e]
        simp
      · have := hl.1.err; rw [e] at this; exact this
      · have := hl.1.wrote; rw [e] at this; exact this

theorem readInt_spec (s : Sys) (n : Nat) (name : Text) :
    Pass s (s.readInt n name).2 ∧ ∀ k, (s.readInt n name).1 = .ok k → ∃ t, Now (s.readInt n name).2.world n name t ∧ Number t k := by
  have h := read_spec s n name 11
  unfold Sys.readInt
  generalize s.read n name 11 = x at *
  obtain ⟨r, s1⟩ := x
  cases r with
  | error e => exact ⟨h.1, fun t ht => by cases ht⟩
  | ok t =>
    dsimp only at *
    split
    · exact ⟨h.1, fun t ht => by cases ht⟩
    · rename_i v hv
      refine ⟨h.1, fun k hk => ?_⟩
      cases hk
      obtain ⟨t', hn, e⟩ := h.2 t rfl
      exact ⟨t', hn, by unfold Number; rw [← e]; exact hv⟩

theorem readRange_spec (s : Sys) (n : Nat) (name : Text) (lo hi : Int) :
    Pass s (s.readRange n name lo hi).2 ∧
      ∀ k, (s.readRange n name lo hi).1 = .ok k → (∃ t, Now (s.readRange n name lo hi).2.world n name t ∧ Number t k) ∧ lo ≤ k ∧ k ≤ hi := by
  have h := readInt_spec s n name
  unfold Sys.readRange
  generalize s.readInt n name = x at *
  obtain ⟨r, s1⟩ := x
  cases r with
  | error e => exact ⟨h.1, fun t ht => by cases ht⟩
  | ok v =>
    dsimp only at *
    split
    · exact ⟨h.1, fun t ht => by cases ht⟩
    · rename_i hr
      refine ⟨h.1, fun k hk => ?_⟩
      cases hk
      exact ⟨h.2 v rfl, by omega, by omega⟩

theorem writeNow_spec (s : Sys) (n : Nat) (name text : Text) :
    (∀ e s', s.writeNow n name text = (.error e, s') → s' = s) ∧
    (∀ u s', s.writeNow n name text = (.ok u, s') → s' = { s with wrote := s.wrote ++ [(n, name, text)] } ∧ ∃ d, s.world[n]? = some d ∧ d.alive = true) := by
  unfold Sys.writeNow
  split
  · rename_i d hd
    by_cases ha : d.alive = true
    · rw [if_pos ha]
      constructor
      · intro e s' he; cases he
      · intro u s' he; cases he; exact ⟨rfl, d, hd, ha⟩
    · rw [if_neg ha]
      constructor
      · intro e s' he; cases he; rfl
      · intro u s' he; cases he
  · constructor
    · intro e s' he; cases he; rfl
    · intro u s' he; cases he

/-- After an attempt to write: time has passed, and either nothing was written, with an error, or the text was, to a device that was attached. -/
structure Wrote (s s' : Sys) (ok : Bool) (n : Nat) (name text : Text) : Prop where
  later : Later s s'
  fds : s'.fds = s.fds
  err : s'.err = s.err
  wrote : s'.wrote = s.wrote ++ if ok then [(n, name, text)] else []
  alive : ok = true → ∃ d, s'.world[n]? = some d ∧ d.alive = true

/-- Success. -/
def okay {ε α : Type} : Except ε α → Bool
  | .ok _ => true
  | .error _ => false

theorem writeNow_wrote (s : Sys) (n : Nat) (name text : Text) :
    Wrote s (s.writeNow n name text).2 (okay (s.writeNow n name text).1) n name text := by
  have h := writeNow_spec s n name text
  generalize hx : s.writeNow n name text = x at *
  obtain ⟨r, s'⟩ := x
  cases r with
  | error e =>
    rw [h.1 e s' rfl]
    exact ⟨Later.refl s, rfl, rfl, by simp [okay], fun h => by cases h⟩
  | ok u =>
    obtain ⟨e, hd⟩ := h.2 u s' rfl
    rw [e]
    exact ⟨⟨[], rfl, rfl⟩, rfl, rfl, by simp [okay], fun _ => hd⟩

theorem Wrote.after {s s1 s' : Sys} {ok : Bool} {n : Nat} {name text : Text} (h : Pass s s1) (h' : Wrote s1 s' ok n name text) :
    Wrote s s' ok n name text :=
  ⟨h.later.trans h'.later, h'.fds.trans h.fds, h'.err.trans h.err, by rw [h'.wrote, h.wrote], h'.alive⟩

theorem writeLoop_wrote (n : Nat) (name text : Text) : ∀ (sc : List Slot) (s : Sys), s.sched = sc →
    Wrote s (writeLoop n name text sc s).2 (okay (writeLoop n name text sc s).1) n name text := by
  intro sc
  induction sc with
  | nil =>
    intro s hs
    have e : { s with sched := [] } = s := by cases s; cases hs; rfl
    unfold writeLoop
    rw [e]
    exact writeNow_wrote s n name text
  | cons sl r ih =>
    intro s hs
    unfold writeLoop
    dsimp only
    have hp : Pass s { s with sched := r, world := sl.evs.foldl event s.world } :=
      ⟨⟨[sl], by simp [hs], by simp⟩, rfl, rfl, rfl⟩
    split
    · exact (ih { s with sched := r, world := sl.evs.foldl event s.world } rfl).after hp
    · exact ⟨hp.later, rfl, rfl, by simp [okay], fun h => by cases h⟩
    · exact (writeNow_wrote _ n name text).after hp

theorem write_wrote (s : Sys) (n : Nat) (name text : Text) :
    Wrote s (s.write n name text).2 (okay (s.write n name text).1) n name text := by
  have h := openFile_spec s n name
  unfold Sys.write
  cases hc : s.openFile n name with
  | mk r s1 =>
    cases r with
    | error e =>
      have hp := h.1 e s1 hc
      exact ⟨hp.later, hp.fds, hp.err, by simp [okay, hp.wrote], fun h => by cases h⟩
    | ok u =>
      obtain ⟨s2, hp, e⟩ := h.2 u s1 hc
      have hl := writeLoop_wrote n name text s1.sched s1 rfl
      dsimp only
      generalize writeLoop n name text s1.sched s1 = x at *
      obtain ⟨r, s3⟩ := x
      dsimp only at *
      refine Wrote.after hp ⟨?_, ?_, ?_, ?_, hl.alive⟩
      · have := hl.later
        rw [e] at this
        exact this
      · unfold Sys.close
        dsimp only
        rw [hl.fds, e]
        simp
      · have := hl.err; rw [e] at this; exact this
      · have := hl.wrote; rw [e] at this; exact this

/-! ## Texts -/

theorem eq_of_take {t l : Text} {k : Nat} (h : t.take k = l) (hl : l.length < k) : t = l := by
  have : t.length ≤ k := by
    have := congrArg List.length h
    rw [List.length_take] at this
    omega
  rw [← h, List.take_of_length_le this]

theorem cutprefix_spec {t pre u : Text} (h : cutprefix t pre = some u) : t = pre ++ u := by
  unfold cutprefix at h
  split at h
  · rename_i e
    cases h
    rw [← e, List.length_take]
    conv => lhs; rw [← List.take_append_drop pre.length t]
    rw [e]
    congr 1
    have := congrArg List.length e
    rw [List.length_take] at this
    congr 1
    omega
  · cases h

end Snek.Ev3
