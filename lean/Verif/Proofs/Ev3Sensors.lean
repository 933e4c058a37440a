import Verif.Proofs.Ev3
/-!
# Lemmas about the sensors of the LEGO EV3
-/
namespace Snek.Ev3

/-! ## Moments between two moments -/

/-- At some moment between `s` and `s'` the file of the device reads `t`. -/
def Mid (s s' : Sys) (n : Nat) (name t : Text) : Prop := ∃ s1, Later s s1 ∧ Later s1 s' ∧ Now s1.world n name t

theorem Mid.wide {a b c d : Sys} {n : Nat} {name t : Text} (h : Mid b c n name t) (hl : Later a b) (hr : Later c d) : Mid a d n name t := by
  obtain ⟨s1, h1, h2, h3⟩ := h
  exact ⟨s1, hl.trans h1, h2.trans hr, h3⟩

theorem Mid.shown {s s' : Sys} {n : Nat} {name t : Text} (h : Mid s s' n name t) {used : List Slot} (hu : s.sched = used ++ s'.sched) :
    Shown s.world used n name t := by
  obtain ⟨s1, ⟨u, e1, e2⟩, ⟨v, e3, _⟩, d, h1, h2, h3⟩ := h
  refine ⟨u.length, d, ?_, h2, h3⟩
  have e : used = u ++ v := by
    have : used ++ s'.sched = (u ++ v) ++ s'.sched := by rw [← hu, e1, e3, List.append_assoc]
    exact List.append_cancel_right this
  unfold worldAt
  rw [e, List.take_left, ← e2]
  exact h1

theorem Decodes.mono {P Q : Text → Text → Prop} (h : ∀ a b, P a b → Q a b) {dr : Text} {v : Val} (hd : Decodes P dr v) : Decodes Q dr v := by
  cases hd with
  | touch a b c d => exact .touch a (h _ _ b) c d
  | near a b c d => exact .near a (h _ _ b) c d
  | far a b c => exact .far a (h _ _ b) c
  | light a b c d e f g => exact .light a (h _ _ b) c (h _ _ d) e f g
  | color a b c d e f g => exact .color a (h _ _ b) c (h _ _ d) e f g
  | dark a b c d e => exact .dark a (h _ _ b) c (h _ _ d) e
  | rgb a b c d e f => exact .rgb a (h _ _ b) c (h _ _ d) (h _ _ e) (h _ _ f) ‹_› ‹_› ‹_› ‹_› ‹_› ‹_› ‹_› ‹_› ‹_›

/-! ## Steps that may report an error -/

/-- Time passes; nothing is written, and what is opened is closed. -/
structure Stay (s s' : Sys) : Prop where
  later : Later s s'
  fds : s'.fds = s.fds
  wrote : s'.wrote = s.wrote
  err : s.err = true → s'.err = true

theorem Stay.refl (s : Sys) : Stay s s := ⟨Later.refl s, rfl, rfl, id⟩

theorem Stay.trans {a b c : Sys} (h : Stay a b) (h' : Stay b c) : Stay a c :=
  ⟨h.later.trans h'.later, h'.fds.trans h.fds, h'.wrote.trans h.wrote, fun e => h'.err (h.err e)⟩

theorem Pass.stay {s s' : Sys} (h : Pass s s') : Stay s s' := ⟨h.later, h.fds, h.wrote, fun e => h.err.trans e⟩

theorem Later.error {s s' : Sys} (h : Later s s') : Later s s'.error := h

theorem Stay.error {s s' : Sys} (h : Stay s s') : Stay s s'.error := ⟨h.later.error, h.fds, h.wrote, fun _ => rfl⟩

/-! ## Ports and drivers -/

theorem char_digit {c : Char} (h1 : ¬c < '1') (h2 : ¬'5' ≤ c) : (c = '1' ∨ c = '2' ∨ c = '3' ∨ c = '4') := by
  have h1' : 49 ≤ c.toNat := by
    have := Char.not_lt.1 h1
    rw [Char.le_def, UInt32.le_iff_toNat_le] at this
    exact this
  have h2' : c.toNat < 53 := by
    have := Char.not_le.1 h2
    rw [Char.lt_def, UInt32.lt_iff_toNat_lt] at this
    exact this
  have hc : c = Char.ofNat c.toNat := (Char.ofNat_toNat c).symm
  generalize c.toNat = k at *
  have : k = 49 ∨ k = 50 ∨ k = 51 ∨ k = 52 := by omega
  rcases this with h | h | h | h <;> subst h <;> simp [hc]

theorem getPort_spec (s : Sys) (n : Nat) :
    Stay s (getPort s n).2 ∧ ((getPort s n).1 = none → (getPort s n).2.err = true) ∧
      ∀ p, (getPort s n).1 = some p → (1 ≤ p ∧ p ≤ 4) ∧ ∃ d, (getPort s n).2.world[n]? = some d ∧ inPort p <+: d.address := by
  have h := read_spec s n "address".toList 63
  unfold getPort
  generalize s.read n "address".toList 63 = x at *
  obtain ⟨r, s1⟩ := x
  cases r with
  | error e => exact ⟨h.1.stay.error, fun _ => rfl, fun p hp => by cases hp⟩
  | ok a =>
    dsimp only at *
    split
    · exact ⟨h.1.stay.error, fun _ => rfl, fun p hp => by cases hp⟩
    · rename_i u hu
      split
      · exact ⟨h.1.stay.error, fun _ => rfl, fun p hp => by cases hp⟩
      · rename_i hc
        refine ⟨h.1.stay, fun hp => (by cases hp), fun p hp => ?_⟩
        cases hp
        obtain ⟨a', ⟨d, h1, h2, h3⟩, e⟩ := h.2 a rfl
        have h3 : d.address = a' := by
          unfold Dev.attr at h3
          rw [if_pos rfl] at h3
          exact Option.some.inj h3
        rw [not_or, not_or] at hc
        obtain ⟨c1, c2, c3⟩ := hc
        have hcc := char_digit c1 c2
        have ha := cutprefix_spec hu
        have hlen : ∃ c v, u = c :: '\n' :: v := by
          match u, c3, hcc with
          | [], _, hcc => simp at hcc
          | [c], c3, _ => simp at c3
          | c :: b :: v, c3, _ => simp at c3; exact ⟨c, v, by rw [c3]⟩
        obtain ⟨c, v, hu'⟩ := hlen
        subst hu'
        have hpre : a <+: d.address := by rw [h3, e]; exact List.take_prefix _ _
        have hcc : c = '1' ∨ c = '2' ∨ c = '3' ∨ c = '4' := by simpa using hcc
        constructor
        · rcases hcc with h | h | h | h <;> subst h <;> simp
        · refine ⟨d, h1, List.IsPrefix.trans ?_ hpre⟩
          rw [ha]
          refine ⟨v, ?_⟩
          unfold inPort
          rw [List.append_assoc, List.append_assoc]
          congr 1
          rcases hcc with h | h | h | h <;> subst h <;> simp [dec, decNat]

theorem getKind_spec (s : Sys) (n : Nat) :
    Stay s (getKind s n).2 ∧ ((getKind s n).1 = none → (getKind s n).2.err = true) ∧
      ∀ k, (getKind s n).1 = some k → ∃ d, (getKind s n).2.world[n]? = some d ∧ (k, d.driver) ∈ drivers := by
  have h := read_spec s n "driver_name".toList 31
  unfold getKind
  generalize s.read n "driver_name".toList 31 = x at *
  obtain ⟨r, s1⟩ := x
  cases r with
  | error e => exact ⟨h.1.stay.error, fun _ => rfl, fun p hp => by cases hp⟩
  | ok t =>
    dsimp only at *
    split
    · rename_i e he
      refine ⟨h.1.stay, fun hp => (by cases hp), fun k hk => ?_⟩
      cases hk
      obtain ⟨t', ⟨d, h1, h2, h3⟩, et⟩ := h.2 t rfl
      have h3 : d.driver = t' := by
        unfold Dev.attr at h3
        rw [if_neg (by decide), if_pos rfl] at h3
        exact Option.some.inj h3
      have hm := List.mem_of_find?_eq_some he
      have hq : t = e.2 := by simpa using List.find?_some he
      refine ⟨d, h1, ?_⟩
      have hlen : e.2.length < 31 := by
        simp only [drivers, List.mem_cons, List.not_mem_nil, or_false] at hm
        rcases hm with h | h | h | h <;> rw [h] <;> decide
      have : d.driver = e.2 := by
        rw [h3]
        exact eq_of_take (et.symm.trans hq) hlen
      rw [this]
      exact hm
    · exact ⟨h.1.stay.error, fun _ => rfl, fun p hp => by cases hp⟩

/-! ## The tables -/

/-- What the tables say of the ports is true of the devices there have been. -/
def TableOk (st : Sensors) : Prop := ∀ p : Nat, st.kind p ≠ 0 → ∃ d, st.sys.world[st.num p]? = some d ∧ inPort p <+: d.address

theorem TableOk.later {st : Sensors} (h : TableOk st) {s : Sys} (hl : Later st.sys s) : TableOk { st with sys := s } := by
  intro p hp
  obtain ⟨d, h1, h2⟩ := h p hp
  obtain ⟨d', e1, e2, _⟩ := hl.same _ _ h1
  exact ⟨d', e1, by rw [e2]; exact h2⟩

/-- A step of the discovery. -/
structure Disc (st : Sensors) (r : Bool × Sensors) : Prop where
  stay : Stay st.sys r.2.sys
  table : TableOk st → TableOk r.2
  err : r.1 = false → r.2.sys.err = true

theorem discover2_spec (st : Sensors) (n : Nat) : Disc st (discover2 st n) := by
  have h := getKind_spec st.sys n
  unfold discover2
  generalize getKind st.sys n = x at *
  obtain ⟨r, s1⟩ := x
  cases r with
  | none => exact ⟨h.1, fun ht => ht.later h.1.later, fun _ => h.2.1 rfl⟩
  | some k =>
    dsimp only at *
    have h' := getPort_spec s1 n
    generalize getPort s1 n = y at *
    obtain ⟨r', s2⟩ := y
    have hs := h.1.trans h'.1
    cases r' with
    | none => exact ⟨hs, fun ht => ht.later hs.later, fun _ => h'.2.1 rfl⟩
    | some p =>
      dsimp only at *
      refine ⟨hs, fun ht => ?_, fun e => by cases e⟩
      intro q hq
      dsimp only at *
      by_cases hqp : q = p
      · subst hqp
        rw [if_pos rfl]
        exact (h'.2.2 q rfl).2
      · rw [if_neg hqp] at hq ⊢
        exact ht.later hs.later q hq

theorem discover1_spec (st : Sensors) (n : Nat) : Disc st (discover1 st n) := by
  have h := openDev_spec st.sys n
  unfold discover1
  generalize st.sys.openDev n = x at *
  obtain ⟨r, s1⟩ := x
  cases r with
  | error e =>
    have hp := h.1 e s1 rfl
    cases e with
    | noent => exact ⟨hp.stay, fun ht => ht.later hp.later, fun e => by cases e⟩
    | intr => exact ⟨hp.stay.error, fun ht => ht.later hp.later, fun _ => rfl⟩
    | other c => exact ⟨hp.stay.error, fun ht => ht.later hp.later, fun _ => rfl⟩
  | ok u =>
    obtain ⟨s2, hp, e, _⟩ := h.2 u s1 rfl
    dsimp only
    have hd := discover2_spec { st with sys := s1 } n
    generalize discover2 { st with sys := s1 } n = y at *
    obtain ⟨b, st'⟩ := y
    have hl : Later st.sys s1 := by rw [e]; exact hp.later
    obtain ⟨d1, d2, d3⟩ := hd
    dsimp only at *
    refine ⟨⟨hl.trans d1.later, ?_, ?_, ?_⟩, fun ht => ?_, d3⟩
    · show st'.sys.fds.erase _ = _
      rw [d1.fds, e]
      simp [hp.fds]
    · show st'.sys.wrote = _
      rw [d1.wrote, e]; exact hp.wrote
    · intro he
      apply d1.err
      rw [e]; exact hp.err.trans he
    · exact d2 (ht.later hl)

theorem discoverAll_spec : ∀ (es : List Entry) (st : Sensors), Disc st (discoverAll st es) := by
  intro es
  induction es with
  | nil => intro st; exact ⟨Stay.refl _, id, fun e => by cases e⟩
  | cons e es ih =>
    intro st
    cases e with
    | dot => exact ih st
    | other => exact ⟨(Stay.refl _).error, id, fun _ => rfl⟩
    | dev n =>
      have h := discover1_spec st n
      unfold discoverAll
      generalize discover1 st n = x at *
      obtain ⟨b, st1⟩ := x
      cases b with
      | false => exact ⟨h.stay, h.table, h.err⟩
      | true =>
        have h' := ih st1
        exact ⟨h.stay.trans h'.stay, fun ht => h'.table (h.table ht), h'.err⟩

theorem discover_spec (st : Sensors) : Stay st.sys (discover st).2.sys ∧ TableOk (discover st).2 ∧
    ((discover st).1 = false → (discover st).2.sys.err = true) := by
  unfold discover
  dsimp only
  have h := pass_call st.sys
  generalize st.sys.call = x at *
  obtain ⟨sl, s1⟩ := x
  dsimp only at *
  have h0 : ∀ s : Sys, TableOk { st with kind := fun _ => 0, num := fun _ => 0, sys := s } := fun s p hp => absurd rfl hp
  split
  · exact ⟨h.stay.error, h0 _, fun _ => rfl⟩
  · have h' := pass_call { s1 with fds := .classDir :: s1.fds }
    generalize Sys.call { s1 with fds := .classDir :: s1.fds } = y at *
    obtain ⟨sl2, s2⟩ := y
    dsimp only at *
    have hl : Later st.sys s2 := h.later.trans (Later.trans (b := { s1 with fds := .classDir :: s1.fds }) ⟨[], rfl, rfl⟩ h'.later)
    have hf : s2.fds = .classDir :: st.sys.fds := by rw [h'.fds]; simp [h.fds]
    split
    · refine ⟨Stay.error ⟨hl, ?_, h'.wrote.trans h.wrote, fun e => ?_⟩, h0 _, fun _ => rfl⟩
      · show s2.fds.erase _ = _
        rw [hf]; simp
      · show s2.err = true
        rw [h'.err]; exact h.err.trans e
    · have hd := discoverAll_spec sl2.names { sys := s2, kind := fun _ => 0, num := fun _ => 0 }
      generalize discoverAll { sys := s2, kind := fun _ => 0, num := fun _ => 0 } sl2.names = z at *
      obtain ⟨b, st'⟩ := z
      obtain ⟨d1, d2, d3⟩ := hd
      dsimp only at *
      refine ⟨⟨hl.trans d1.later, ?_, ?_, ?_⟩, d2 (h0 s2), d3⟩
      · show st'.sys.fds.erase _ = _
        rw [d1.fds, hf]; simp
      · exact d1.wrote.trans (h'.wrote.trans h.wrote)
      · intro e
        exact d1.err (by rw [h'.err]; exact h.err.trans e)

/-- The outcome of `open_sensor` and `get_sensor`: on success the directory of a device of the port is open. -/
structure Opened (st st' : Sensors) (n : Nat) (p : Nat) : Prop where
  fds : st'.sys.fds = .dev n :: st.sys.fds
  later : Later st.sys st'.sys
  wrote : st'.sys.wrote = st.sys.wrote
  err : st.sys.err = true → st'.sys.err = true
  table : TableOk st'
  dev : ∃ d, st'.sys.world[n]? = some d ∧ inPort p <+: d.address

theorem openSensor_spec (st : Sensors) (p : Nat) (ht : TableOk st) :
    (∀ e st', openSensor st p = (.error e, st') → Stay st.sys st'.sys ∧ TableOk st') ∧
    (∀ n st', openSensor st p = (.ok n, st') → Opened st st' n p) := by
  unfold openSensor
  by_cases hk : st.kind p = 0
  · rw [if_pos hk]
    exact ⟨fun e st' h => by cases h; exact ⟨Stay.refl _, ht⟩, fun n st' h => by cases h⟩
  · rw [if_neg hk]
    have h := openDev_spec st.sys (st.num p)
    generalize st.sys.openDev (st.num p) = x at *
    obtain ⟨r, s1⟩ := x
    cases r with
    | error e =>
      have hp := h.1 e s1 rfl
      exact ⟨fun e st' h => by cases h; exact ⟨hp.stay, ht.later hp.later⟩, fun n st' h => by cases h⟩
    | ok u =>
      obtain ⟨s2, hp, e, _⟩ := h.2 u s1 rfl
      have hl : Later st.sys s1 := by rw [e]; exact hp.later
      refine ⟨fun e st' h => (by cases h), fun n st' h => ?_⟩
      cases h
      refine ⟨?_, hl, ?_, ?_, ht.later hl, (ht.later hl) p hk⟩
      · show s1.fds = _
        rw [e]; simp [hp.fds]
      · show s1.wrote = _
        rw [e]; exact hp.wrote
      · intro he
        show s1.err = true
        rw [e]; exact hp.err.trans he

theorem getSensor_spec (st : Sensors) (p : Int) (ht : TableOk st) :
    (∀ st', getSensor st p = (none, st') → Stay st.sys st'.sys ∧ TableOk st' ∧ st'.sys.err = true) ∧
    (∀ n st', getSensor st p = (some n, st') → 1 ≤ p ∧ p ≤ 4 ∧ Opened st st' n p.toNat) := by
  unfold getSensor
  by_cases hr : p ≤ 0 ∨ p > 4
  · rw [if_pos hr]
    exact ⟨fun st' h => by cases h; exact ⟨(Stay.refl _).error, ht, rfl⟩, fun n st' h => by cases h⟩
  · rw [if_neg hr]
    have h := openSensor_spec st p.toNat ht
    generalize openSensor st p.toNat = x at *
    obtain ⟨r, st1⟩ := x
    cases r with
    | ok n =>
      have ho := h.2 n st1 rfl
      exact ⟨fun st' h => (by cases h), fun n st' h => by cases h; exact ⟨by omega, by omega, ho⟩⟩
    | error e =>
      obtain ⟨hs, ht1⟩ := h.1 e st1 rfl
      dsimp only
      have hd := discover_spec st1
      generalize discover st1 = y at *
      obtain ⟨b, st2⟩ := y
      obtain ⟨d1, d2, d3⟩ := hd
      have hs2 := hs.trans d1
      cases b with
      | false => exact ⟨fun st' h => by cases h; exact ⟨hs2, d2, d3 rfl⟩, fun n st' h => by cases h⟩
      | true =>
        dsimp only at *
        have h := openSensor_spec st2 p.toNat d2
        generalize openSensor st2 p.toNat = z at *
        obtain ⟨r, st3⟩ := z
        cases r with
        | error e =>
          obtain ⟨hs3, ht3⟩ := h.1 e st3 rfl
          exact ⟨fun st' h => by cases h; exact ⟨(hs2.trans hs3).error, ht3, rfl⟩, fun n st' h => by cases h⟩
        | ok n =>
          have ho := h.2 n st3 rfl
          refine ⟨fun st' h => (by cases h), fun n st' h => ?_⟩
          cases h
          refine ⟨by omega, by omega, ?_, hs2.later.trans ho.later, ho.wrote.trans hs2.wrote, fun e => ho.err (hs2.err e), ho.table, ho.dev⟩
          rw [ho.fds, hs2.fds]

/-! ## Readers -/

/-- The value given by a reader is the one the files decode to, unless an error is reported. -/
structure Reads (s : Sys) (n : Nat) (dr : Text) (r : Val × Sys) : Prop where
  stay : Stay s r.2
  val : r.2.err = false → Decodes (Mid s r.2 n) dr r.1

theorem mid_end {s s' : Sys} {n : Nat} {name t : Text} (h : Later s s') (hn : Now s'.world n name t) : Mid s s' n name t :=
  ⟨s', h, Later.refl s', hn⟩

theorem err_absurd {s : Sys} {P : Prop} (h : s.error.err = false) : P := by
  have : s.error.err = true := rfl
  rw [this] at h; cases h

theorem button_spec (s : Sys) (n : Nat) : Reads s n "lego-ev3-touch\n".toList (button s n) := by
  have h := readRange_spec s n "value0".toList 0 1
  unfold button
  generalize s.readRange n "value0".toList 0 1 = x at *
  obtain ⟨r, s1⟩ := x
  cases r with
  | error e => exact ⟨h.1.stay.error, err_absurd⟩
  | ok k =>
    obtain ⟨⟨t, hn, hk⟩, h0, h1⟩ := h.2 k rfl
    refine ⟨h.1.stay, fun _ => ?_⟩
    have : k = 0 ∨ k = 1 := by omega
    have e : (if k ≠ 0 then (0x3f800000 : BitVec 32) else 0) = intToF k := by
      rcases this with h | h <;> subst h <;> decide
    show Decodes _ _ (Val.num (if k ≠ 0 then (0x3f800000 : BitVec 32) else 0))
    rw [e]
    exact .touch rfl (mid_end h.1.later hn) hk this

theorem distance_spec (s : Sys) (n : Nat) : Reads s n "lego-ev3-us\n".toList (distance s n) := by
  have h := readInt_spec s n "value0".toList
  unfold distance
  generalize s.readInt n "value0".toList = x at *
  obtain ⟨r, s1⟩ := x
  cases r with
  | error e => exact ⟨h.1.stay.error, err_absurd⟩
  | ok k =>
    obtain ⟨t, hn, hk⟩ := h.2 k rfl
    dsimp only at *
    by_cases hm : k = 2550
    · rw [if_pos hm]; subst hm
      exact ⟨h.1.stay, fun _ => .far rfl (mid_end h.1.later hn) hk⟩
    · rw [if_neg hm]
      exact ⟨h.1.stay, fun _ => .near rfl (mid_end h.1.later hn) hk hm⟩

theorem light_spec (s : Sys) (n : Nat) : Reads s n "lego-ev3-color\n".toList (light s n) := by
  have h := read_spec s n "mode".toList 15
  unfold light
  generalize s.read n "mode".toList 15 = x at *
  obtain ⟨r, s1⟩ := x
  cases r with
  | error e => exact ⟨h.1.stay.error, err_absurd⟩
  | ok m =>
    obtain ⟨m', hn, em⟩ := h.2 m rfl
    dsimp only at *
    have full : ∀ l : Text, m = l → l.length < 15 → m' = l := fun l e hl => eq_of_take (em.symm.trans e) hl
    have hmid := mid_end h.1.later hn
    split
    · rename_i hm
      have hm' : m' = "COL-REFLECT\n".toList ∨ m' = "COL-AMBIENT\n".toList :=
        hm.imp (fun e => full _ e (by decide)) (fun e => full _ e (by decide))
      have h' := readRange_spec s1 n "value0".toList 0 100
      unfold intensity
      generalize s1.readRange n "value0".toList 0 100 = y at *
      obtain ⟨r, s2⟩ := y
      cases r with
      | error e => exact ⟨(h.1.stay.trans h'.1.stay).error, err_absurd⟩
      | ok k =>
        obtain ⟨⟨t, hn', hk⟩, h0, h1⟩ := h'.2 k rfl
        exact ⟨h.1.stay.trans h'.1.stay,
          fun _ => .light rfl (hmid.wide (Later.refl s) h'.1.later) hm' ((mid_end h'.1.later hn').wide h.1.later (Later.refl _)) hk h0 h1⟩
    · split
      · rename_i hm
        have hm' := full _ hm (by decide)
        have h' := readRange_spec s1 n "value0".toList 0 7
        unfold colorName
        generalize s1.readRange n "value0".toList 0 7 = y at *
        obtain ⟨r, s2⟩ := y
        cases r with
        | error e => exact ⟨(h.1.stay.trans h'.1.stay).error, err_absurd⟩
        | ok k =>
          obtain ⟨⟨t, hn', hk⟩, h0, h1⟩ := h'.2 k rfl
          dsimp only at *
          have hm2 := hmid.wide (Later.refl s) h'.1.later
          have hv := (mid_end h'.1.later hn').wide h.1.later (Later.refl _)
          by_cases hz : k = 0
          · rw [if_pos hz]; subst hz
            exact ⟨h.1.stay.trans h'.1.stay, fun _ => .dark rfl hm2 hm' hv hk⟩
          · rw [if_neg hz]
            have e : k = (k.toNat : Int) := by omega
            exact ⟨h.1.stay.trans h'.1.stay, fun _ => .color rfl hm2 hm' hv (by rw [← e]; exact hk) (by omega) (by omega)⟩
      · split
        · rename_i hm
          have hm' := full _ hm (by decide)
          have ha := readRange_spec s1 n "value0".toList 0 1020
          unfold readRgb
          generalize s1.readRange n "value0".toList 0 1020 = y at *
          obtain ⟨r, s2⟩ := y
          cases r with
          | error e => exact ⟨(h.1.stay.trans ha.1.stay).error, err_absurd⟩
          | ok r =>
            obtain ⟨⟨tr, hnr, hkr⟩, r0, r1⟩ := ha.2 r rfl
            dsimp only at *
            have hb := readRange_spec s2 n "value1".toList 0 1020
            generalize s2.readRange n "value1".toList 0 1020 = y at *
            obtain ⟨g, s3⟩ := y
            cases g with
            | error e => exact ⟨((h.1.stay.trans ha.1.stay).trans hb.1.stay).error, err_absurd⟩
            | ok g =>
              obtain ⟨⟨tg, hng, hkg⟩, g0, g1⟩ := hb.2 g rfl
              dsimp only at *
              have hc := readRange_spec s3 n "value2".toList 0 1020
              generalize s3.readRange n "value2".toList 0 1020 = y at *
              obtain ⟨b, s4⟩ := y
              cases b with
              | error e => exact ⟨(((h.1.stay.trans ha.1.stay).trans hb.1.stay).trans hc.1.stay).error, err_absurd⟩
              | ok b =>
                obtain ⟨⟨tb, hnb, hkb⟩, b0, b1⟩ := hc.2 b rfl
                refine ⟨((h.1.stay.trans ha.1.stay).trans hb.1.stay).trans hc.1.stay, fun _ => ?_⟩
                have la := ha.1.later
                have lb := hb.1.later
                have lc := hc.1.later
                exact .rgb rfl (hmid.wide (Later.refl s) (la.trans (lb.trans lc))) hm'
                  ((mid_end la hnr).wide h.1.later (lb.trans lc)) ((mid_end lb hng).wide (h.1.later.trans la) lc)
                  ((mid_end lc hnb).wide (h.1.later.trans (la.trans lb)) (Later.refl _)) hkr hkg hkb r0 r1 g0 g1 b0 b1
        · exact ⟨h.1.stay.error, err_absurd⟩

/-- What `read` does once the directory of a device is open. -/
def readOpen (s : Sys) (n : Nat) : Val × Sys :=
  match getKind s n with
  | (some 1, s) => button s n
  | (some 2, s) => (.none, s.error)
  | (some 3, s) => distance s n
  | (some 4, s) => light s n
  | (_, s) => (.none, s)

theorem Reads.after {s s1 : Sys} {n : Nat} {dr : Text} {r : Val × Sys} (h : Stay s s1) (h' : Reads s1 n dr r) : Reads s n dr r :=
  ⟨h.trans h'.stay, fun e => (h'.val e).mono fun _ _ hm => hm.wide h.later (Later.refl _)⟩

theorem readOpen_spec (s : Sys) (n : Nat) (d : Dev) (hd : s.world[n]? = some d) : Reads s n d.driver (readOpen s n) := by
  have h := getKind_spec s n
  unfold readOpen
  generalize getKind s n = x at *
  obtain ⟨r, s1⟩ := x
  cases r with
  | none =>
    exact ⟨h.1, fun e => by rw [h.2.1 rfl] at e; cases e⟩
  | some k =>
    obtain ⟨d1, e1, hm⟩ := h.2.2 k rfl
    obtain ⟨d', e', _, ed⟩ := h.1.later.same n d hd
    dsimp only at *
    rw [e1] at e'; cases e'
    rw [← ed]
    simp only [drivers, List.mem_cons, List.not_mem_nil, or_false, Prod.mk.injEq] at hm
    rcases hm with ⟨hk, hdr⟩ | ⟨hk, hdr⟩ | ⟨hk, hdr⟩ | ⟨hk, hdr⟩ <;> subst hk <;> rw [hdr]
    · exact (button_spec s1 n).after h.1
    · exact ⟨h.1.error, err_absurd⟩
    · exact (distance_spec s1 n).after h.1
    · exact (light_spec s1 n).after h.1

theorem readSensor_eq (st : Sensors) (p : Int) : readSensor st p =
    match getSensor st p with
    | (none, st) => (.none, st)
    | (some n, st) => ((readOpen st.sys n).1, { st with sys := (readOpen st.sys n).2.close (.dev n) }) := rfl

/-- Everything about one `read`. -/
structure ReadOk (st : Sensors) (p : Int) (r : Val × Sensors) : Prop where
  stay : Stay st.sys r.2.sys
  table : TableOk r.2
  val : r.2.sys.err = false → 1 ≤ p ∧ p ≤ 4 ∧ ∃ n d, r.2.sys.world[n]? = some d ∧ inPort p <+: d.address ∧
    Decodes (Mid st.sys r.2.sys n) d.driver r.1

theorem readSensor_spec (st : Sensors) (p : Int) (ht : TableOk st) : ReadOk st p (readSensor st p) := by
  have h := getSensor_spec st p ht
  rw [readSensor_eq]
  generalize getSensor st p = x at *
  obtain ⟨r, st1⟩ := x
  cases r with
  | none =>
    obtain ⟨h1, h2, h3⟩ := h.1 st1 rfl
    refine ⟨h1, h2, fun e => ?_⟩
    rw [h3] at e; cases e
  | some n =>
    obtain ⟨hp1, hp4, ho⟩ := h.2 n st1 rfl
    obtain ⟨d, hd, ha⟩ := ho.dev
    have hr := readOpen_spec st1.sys n d hd
    dsimp only
    generalize readOpen st1.sys n = y at *
    obtain ⟨v, s2⟩ := y
    obtain ⟨r1, r2⟩ := hr
    dsimp only at *
    have hl := ho.later.trans r1.later
    refine ⟨⟨hl, ?_, r1.wrote.trans ho.wrote, fun e => r1.err (ho.err e)⟩, ho.table.later (s := s2) r1.later, fun e => ⟨hp1, hp4, ?_⟩⟩
    · show s2.fds.erase _ = _
      rw [r1.fds, ho.fds]; simp
    · obtain ⟨d', e1, e2, e3⟩ := r1.later.same n d hd
      refine ⟨n, d', e1, ?_, ?_⟩
      · rw [e2]
        have : ((p.toNat : Nat) : Int) = p := by omega
        rw [this] at ha
        exact ha
      · rw [e3]
        exact (r2 e).mono fun _ _ hm => hm.wide ho.later (Later.refl _)

/-- Everything about one change of mode. -/
structure ModeOk (st : Sensors) (p : Int) (mode : Text) (st' : Sensors) : Prop where
  later : Later st.sys st'.sys
  fds : st'.sys.fds = st.sys.fds
  table : TableOk st'
  wrote : (st'.sys.err = true ∧ st'.sys.wrote = st.sys.wrote) ∨
    (1 ≤ p ∧ p ≤ 4 ∧ ∃ n d, st'.sys.world[n]? = some d ∧ inPort p <+: d.address ∧ d.driver = "lego-ev3-color\n".toList ∧
      st'.sys.wrote = st.sys.wrote ++ [(n, "mode".toList, mode)])

theorem setMode_spec (st : Sensors) (p : Int) (mode : Text) (ht : TableOk st) : ModeOk st p mode (setMode st p mode) := by
  have h := getSensor_spec st p ht
  unfold setMode
  generalize getSensor st p = x at *
  obtain ⟨r, st1⟩ := x
  cases r with
  | none =>
    obtain ⟨h1, h2, h3⟩ := h.1 st1 rfl
    exact ⟨h1.later, h1.fds, h2, .inl ⟨h3, h1.wrote⟩⟩
  | some n =>
    obtain ⟨hp1, hp4, ho⟩ := h.2 n st1 rfl
    obtain ⟨d, hd, ha⟩ := ho.dev
    have ha : inPort p <+: d.address := by
      have : ((p.toNat : Nat) : Int) = p := by omega
      rw [this] at ha; exact ha
    dsimp only
    have hk := getKind_spec st1.sys n
    generalize getKind st1.sys n = y at *
    obtain ⟨k, s2⟩ := y
    have hl := ho.later.trans hk.1.later
    have hf : (s2.close (.dev n)).fds = st.sys.fds := by
      show s2.fds.erase _ = _
      rw [hk.1.fds, ho.fds]; simp
    have hw : s2.wrote = st.sys.wrote := hk.1.wrote.trans ho.wrote
    cases k with
    | none => exact ⟨hl, hf, ho.table.later (s := s2) hk.1.later, .inl ⟨hk.2.1 rfl, hw⟩⟩
    | some k =>
      dsimp only at *
      by_cases h4 : k = 4
      · rw [if_neg (by simp [h4])]
        have hwr := write_wrote s2 n "mode".toList mode
        generalize s2.write n "mode".toList mode = z at *
        obtain ⟨r, s3⟩ := z
        have hf3 : (s3.close (.dev n)).fds = st.sys.fds := by
          show s3.fds.erase _ = _
          rw [hwr.fds, hk.1.fds, ho.fds]; simp
        have hl3 := hl.trans hwr.later
        have ht3 : TableOk { st1 with sys := s3 } := ho.table.later (hk.1.later.trans hwr.later)
        cases r with
        | error e =>
          refine ⟨hl3, hf3, ht3, .inl ⟨rfl, ?_⟩⟩
          show s3.wrote = _
          rw [hwr.wrote, hw]; simp [okay]
        | ok u =>
          refine ⟨hl3, hf3, ht3, .inr ⟨hp1, hp4, ?_⟩⟩
          obtain ⟨d', e1, e2, e3⟩ := (hk.1.later.trans hwr.later).same n d hd
          refine ⟨n, d', e1, by rw [e2]; exact ha, ?_, ?_⟩
          · obtain ⟨d1, f1, hm⟩ := hk.2.2 k rfl
            obtain ⟨d2, f2, _, f3⟩ := hk.1.later.same n d hd
            rw [f1] at f2; cases f2
            subst h4
            simp [drivers] at hm
            rw [e3, ← f3, hm]; rfl
          · show s3.wrote = _
            rw [hwr.wrote, hw]; simp [okay]
      · rw [if_pos h4]
        exact ⟨hl, hf, ho.table.later (s := s2) hk.1.later, .inl ⟨rfl, hw⟩⟩

theorem tableOk_call {st : Sensors} (h : TableOk st) (c : SCall) (sched : List Slot) : TableOk (callSensor st c sched).2 := by
  have h' : TableOk { st with sys := { st.sys with sched := sched, err := false } } := h
  cases c with
  | read p => exact (readSensor_spec _ p h').table
  | mode p m => exact (setMode_spec _ p m.text h').table

theorem tableOk_history (w : World) (cs : List (SCall × List Slot)) : TableOk (history w cs) := by
  unfold history
  have : ∀ (cs : List (SCall × List Slot)) (st : Sensors), TableOk st → TableOk (cs.foldl (fun st c => (callSensor st c.1 c.2).2) st) := by
    intro cs
    induction cs with
    | nil => intro st h; exact h
    | cons c cs ih => intro st h; exact ih _ (tableOk_call h c.1 c.2)
  exact this cs _ fun p hp => absurd rfl hp

end Snek.Ev3
