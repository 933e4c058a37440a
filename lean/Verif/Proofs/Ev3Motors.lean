import Verif.Model.Ev3Motors
import Verif.Proofs.Ev3Calm
/-!
# Lemmas about the motors of the LEGO EV3
-/
namespace Snek.Ev3

/-! ## Names of ports -/

theorem letter_range {c : Char} (h1 : ¬c < 'A') (h2 : ¬'D' < c) : c = 'A' ∨ c = 'B' ∨ c = 'C' ∨ c = 'D' := by
  have h1' : 65 ≤ c.toNat := by
    have := Char.not_lt.1 h1
    rw [Char.le_def, UInt32.le_iff_toNat_le] at this
    exact this
  have h2' : c.toNat ≤ 68 := by
    have := Char.not_lt.1 h2
    rw [Char.le_def, UInt32.le_iff_toNat_le] at this
    exact this
  have hc : c = Char.ofNat c.toNat := (Char.ofNat_toNat c).symm
  generalize c.toNat = k at *
  have : k = 65 ∨ k = 66 ∨ k = 67 ∨ k = 68 := by omega
  rcases this with h | h | h | h <;> subst h <;> simp [hc]

theorem motorPort_eq (t : Text) : motorPort t = portOf t := by
  unfold motorPort portOf
  match t with
  | [] => decide
  | c :: d :: t =>
    dsimp only
    rw [if_pos (by right; right; simp)]
    symm
    rw [List.find?_eq_none]
    intro p _
    simp
  | [c] =>
    dsimp only
    by_cases h1 : c < 'A'
    · rw [if_pos (by left; exact h1)]
      symm
      rw [List.find?_eq_none]
      intro p hp
      simp only [decide_eq_true_eq]
      intro e
      injection e with e
      subst e
      rw [List.mem_range] at hp
      have : p = 0 ∨ p = 1 ∨ p = 2 ∨ p = 3 := by omega
      rcases this with h | h | h | h <;> subst h <;> exact absurd h1 (by decide)
    · by_cases h2 : 'D' < c
      · rw [if_pos (by right; left; exact h2)]
        symm
        rw [List.find?_eq_none]
        intro p hp
        simp only [decide_eq_true_eq]
        intro e
        injection e with e
        subst e
        rw [List.mem_range] at hp
        have : p = 0 ∨ p = 1 ∨ p = 2 ∨ p = 3 := by omega
        rcases this with h | h | h | h <;> subst h <;> exact absurd h2 (by decide)
      · rcases letter_range h1 h2 with h | h | h | h <;> subst h <;> decide

theorem portOf_lt {t : Text} {p : Nat} (h : portOf t = some p) : p < 4 := by
  unfold portOf at h
  exact List.mem_range.1 (List.mem_of_find?_eq_some h)

/-! ## The table -/

/-- What the table says of a port is true of the motors there have been, except for the number 0, which it also uses for a port without a motor. -/
def MTableOk (st : Motors) : Prop := ∀ p : Nat, st.motors p ≠ 0 → ∃ d, st.sys.world[st.motors p]? = some d ∧ outPort p <+: d.address

theorem MTableOk.later {st : Motors} (h : MTableOk st) {s : Sys} (hl : Later st.sys s) : MTableOk { st with sys := s } := by
  intro p hp
  obtain ⟨d, h1, h2⟩ := h p hp
  obtain ⟨d', e1, e2, _⟩ := hl.same _ _ h1
  exact ⟨d', e1, by rw [e2]; exact h2⟩

/-- A step of the discovery. -/
structure MDisc (st : Motors) (r : Bool × Motors) : Prop where
  stay : Stay st.sys r.2.sys
  table : MTableOk st → MTableOk r.2
  sel : r.2.sel = st.sel
  err : r.1 = false → r.2.sys.err = true

theorem mdiscover2_spec (st : Motors) (n : Nat) : MDisc st (mdiscover2 st n) := by
  have h := read_spec st.sys n "address".toList 63
  unfold mdiscover2
  generalize st.sys.read n "address".toList 63 = x at *
  obtain ⟨r, s1⟩ := x
  cases r with
  | error e => exact ⟨h.1.stay.error, fun ht => ht.later h.1.later, rfl, fun _ => rfl⟩
  | ok a =>
    dsimp only at *
    split
    · exact ⟨h.1.stay.error, fun ht => ht.later h.1.later, rfl, fun _ => rfl⟩
    · rename_i u hu
      split
      · exact ⟨h.1.stay.error, fun ht => ht.later h.1.later, rfl, fun _ => rfl⟩
      · rename_i hc
        refine ⟨h.1.stay, fun ht => ?_, rfl, fun e => by cases e⟩
        obtain ⟨a', ⟨d, h1, h2, h3⟩, e⟩ := h.2 a rfl
        have h3 : d.address = a' := by
          unfold Dev.attr at h3
          rw [if_pos rfl] at h3
          exact Option.some.inj h3
        rw [not_or, not_or] at hc
        obtain ⟨c1, c2, c3⟩ := hc
        have hcc := letter_range c1 c2
        have ha := cutprefix_spec hu
        have hlen : ∃ c v, u = c :: '\n' :: v := by
          match u, c3, hcc with
          | [], _, hcc => simp at hcc
          | [c], c3, _ => simp at c3
          | c :: b :: v, c3, _ => simp at c3; exact ⟨c, v, by rw [c3]⟩
        obtain ⟨c, v, hu'⟩ := hlen
        subst hu'
        have hpre : a <+: d.address := by rw [h3, e]; exact List.take_prefix _ _
        have hcc : c = 'A' ∨ c = 'B' ∨ c = 'C' ∨ c = 'D' := by simpa using hcc
        intro q hq
        simp only [List.getD_cons_zero] at *
        by_cases hqp : q = c.toNat - 65
        · rw [if_pos hqp]
          refine ⟨d, h1, List.IsPrefix.trans ?_ hpre⟩
          rw [ha]
          refine ⟨v, ?_⟩
          unfold outPort
          rw [List.append_assoc, hqp]
          congr 1
          rcases hcc with h | h | h | h <;> subst h <;> simp [outLetter]
        · rw [if_neg hqp] at hq ⊢
          exact ht.later h.1.later q hq

theorem mdiscover1_spec (st : Motors) (n : Nat) : MDisc st (mdiscover1 st n) := by
  have h := openDev_spec st.sys n
  unfold mdiscover1
  generalize st.sys.openDev n = x at *
  obtain ⟨r, s1⟩ := x
  cases r with
  | error e =>
    have hp := h.1 e s1 rfl
    cases e with
    | noent => exact ⟨hp.stay, fun ht => ht.later hp.later, rfl, fun e => by cases e⟩
    | intr => exact ⟨hp.stay.error, fun ht => ht.later hp.later, rfl, fun _ => rfl⟩
    | other c => exact ⟨hp.stay.error, fun ht => ht.later hp.later, rfl, fun _ => rfl⟩
  | ok u =>
    obtain ⟨s2, hp, e, _⟩ := h.2 u s1 rfl
    dsimp only
    have hd := mdiscover2_spec { st with sys := s1 } n
    generalize mdiscover2 { st with sys := s1 } n = y at *
    obtain ⟨b, st'⟩ := y
    have hl : Later st.sys s1 := by rw [e]; exact hp.later
    obtain ⟨d1, d2, d3, d4⟩ := hd
    dsimp only at *
    refine ⟨⟨hl.trans d1.later, ?_, ?_, ?_⟩, fun ht => ?_, d3, d4⟩
    · show st'.sys.fds.erase _ = _
      rw [d1.fds, e]
      simp [hp.fds]
    · show st'.sys.wrote = _
      rw [d1.wrote, e]; exact hp.wrote
    · intro he
      apply d1.err
      rw [e]; exact hp.err.trans he
    · exact d2 (ht.later hl)

theorem mdiscoverAll_spec : ∀ (es : List Entry) (st : Motors), MDisc st (mdiscoverAll st es) := by
  intro es
  induction es with
  | nil => intro st; exact ⟨Stay.refl _, id, rfl, fun e => by cases e⟩
  | cons e es ih =>
    intro st
    cases e with
    | dot => exact ih st
    | other => exact ⟨(Stay.refl _).error, id, rfl, fun _ => rfl⟩
    | dev n =>
      have h := mdiscover1_spec st n
      unfold mdiscoverAll
      generalize mdiscover1 st n = x at *
      obtain ⟨b, st1⟩ := x
      cases b with
      | false => exact ⟨h.stay, h.table, h.sel, h.err⟩
      | true =>
        have h' := ih st1
        exact ⟨h.stay.trans h'.stay, fun ht => h'.table (h.table ht), h'.sel.trans h.sel, h'.err⟩

theorem mdiscover_spec (st : Motors) : Stay st.sys (mdiscover st).2.sys ∧ MTableOk (mdiscover st).2 ∧ (mdiscover st).2.sel = st.sel ∧
    ((mdiscover st).1 = false → (mdiscover st).2.sys.err = true) := by
  unfold mdiscover
  dsimp only
  have h := pass_call st.sys
  generalize st.sys.call = x at *
  obtain ⟨sl, s1⟩ := x
  dsimp only at *
  have h0 : ∀ s : Sys, MTableOk { st with motors := fun _ => 0, sys := s } := fun s p hp => absurd rfl hp
  split
  · exact ⟨h.stay.error, h0 _, rfl, fun _ => rfl⟩
  · have h' := pass_call { s1 with fds := .classDir :: s1.fds }
    generalize Sys.call { s1 with fds := .classDir :: s1.fds } = y at *
    obtain ⟨sl2, s2⟩ := y
    dsimp only at *
    have hl : Later st.sys s2 := h.later.trans (Later.trans (b := { s1 with fds := .classDir :: s1.fds }) ⟨[], rfl, rfl⟩ h'.later)
    have hf : s2.fds = .classDir :: st.sys.fds := by rw [h'.fds]; simp [h.fds]
    split
    · refine ⟨Stay.error ⟨hl, ?_, h'.wrote.trans h.wrote, fun e => ?_⟩, h0 _, rfl, fun _ => rfl⟩
      · show s2.fds.erase _ = _
        rw [hf]; simp
      · show s2.err = true
        rw [h'.err]; exact h.err.trans e
    · have hd := mdiscoverAll_spec sl2.names { sys := s2, motors := fun _ => 0, sel := st.sel }
      generalize mdiscoverAll { sys := s2, motors := fun _ => 0, sel := st.sel } sl2.names = z at *
      obtain ⟨b, st'⟩ := z
      obtain ⟨d1, d2, d3, d4⟩ := hd
      dsimp only at *
      refine ⟨⟨hl.trans d1.later, ?_, ?_, ?_⟩, d2 (h0 s2), d3, d4⟩
      · show st'.sys.fds.erase _ = _
        rw [d1.fds, hf]; simp
      · exact d1.wrote.trans (h'.wrote.trans h.wrote)
      · intro e
        exact d1.err (by rw [h'.err]; exact h.err.trans e)

/-- On success the directory of a motor of the port, or of motor 0, is open. -/
structure MOpened (st st' : Motors) (n : Nat) (p : Nat) : Prop where
  fds : st'.sys.fds = .dev n :: st.sys.fds
  later : Later st.sys st'.sys
  wrote : st'.sys.wrote = st.sys.wrote
  err : st.sys.err = true → st'.sys.err = true
  table : MTableOk st'
  sel : st'.sel = st.sel
  dev : ∃ d, st'.sys.world[n]? = some d ∧ (outPort p <+: d.address ∨ n = 0)

theorem openMotor_spec (st : Motors) (p : Nat) (ht : MTableOk st) :
    (∀ e st', openMotor st p = (.error e, st') → Stay st.sys st'.sys ∧ MTableOk st' ∧ st'.sel = st.sel) ∧
    (∀ n st', openMotor st p = (.ok n, st') → MOpened st st' n p) := by
  unfold openMotor
  have h := openDev_spec st.sys (st.motors p)
  generalize st.sys.openDev (st.motors p) = x at *
  obtain ⟨r, s1⟩ := x
  cases r with
  | error e =>
    have hp := h.1 e s1 rfl
    exact ⟨fun e st' h => by cases h; exact ⟨hp.stay, ht.later hp.later, rfl⟩, fun n st' h => by cases h⟩
  | ok u =>
    obtain ⟨s2, hp, e, d, hd, ha⟩ := h.2 u s1 rfl
    have hl : Later st.sys s1 := by rw [e]; exact hp.later
    refine ⟨fun e st' h => (by cases h), fun n st' h => ?_⟩
    cases h
    refine ⟨?_, hl, ?_, ?_, ht.later hl, rfl, ?_⟩
    · show s1.fds = _
      rw [e]; simp [hp.fds]
    · show s1.wrote = _
      rw [e]; exact hp.wrote
    · intro he
      show s1.err = true
      rw [e]; exact hp.err.trans he
    · by_cases h0 : st.motors p = 0
      · exact ⟨d, hd, .inr h0⟩
      · obtain ⟨d', e1, e2⟩ := ht.later hl p h0
        exact ⟨d', e1, .inl e2⟩

theorem getMotor_spec (st : Motors) (p : Nat) (ht : MTableOk st) :
    (∀ st', getMotor st p = (none, st') → Stay st.sys st'.sys ∧ MTableOk st' ∧ st'.sys.err = true ∧ st'.sel = st.sel) ∧
    (∀ n st', getMotor st p = (some n, st') → MOpened st st' n p) := by
  unfold getMotor
  have h := openMotor_spec st p ht
  generalize openMotor st p = x at *
  obtain ⟨r, st1⟩ := x
  cases r with
  | ok n =>
    have ho := h.2 n st1 rfl
    exact ⟨fun st' h => (by cases h), fun n st' h => by cases h; exact ho⟩
  | error e =>
    obtain ⟨hs, ht1, hsel⟩ := h.1 e st1 rfl
    dsimp only
    have hd := mdiscover_spec st1
    generalize mdiscover st1 = y at *
    obtain ⟨b, st2⟩ := y
    obtain ⟨d1, d2, d3, d4⟩ := hd
    have hs2 := hs.trans d1
    cases b with
    | false => exact ⟨fun st' h => by cases h; exact ⟨hs2, d2, d4 rfl, d3.trans hsel⟩, fun n st' h => by cases h⟩
    | true =>
      dsimp only at *
      have h := openMotor_spec st2 p d2
      generalize openMotor st2 p = z at *
      obtain ⟨r, st3⟩ := z
      cases r with
      | error e =>
        obtain ⟨hs3, ht3, hsel3⟩ := h.1 e st3 rfl
        exact ⟨fun st' h => by cases h; exact ⟨(hs2.trans hs3).error, ht3, rfl, hsel3.trans (d3.trans hsel)⟩, fun n st' h => by cases h⟩
      | ok n =>
        have ho := h.2 n st3 rfl
        refine ⟨fun st' h => (by cases h), fun n st' h => ?_⟩
        cases h
        refine ⟨?_, hs2.later.trans ho.later, ho.wrote.trans hs2.wrote, fun e => ho.err (hs2.err e), ho.table, ho.sel.trans (d3.trans hsel), ho.dev⟩
        rw [ho.fds, hs2.fds]

/-! ## Orders -/

/-- The orders `os`, all of them without an error or a beginning of them with one, are given to device `n`. -/
structure Gives (s s' : Sys) (n : Nat) (os : List (Text × Text)) : Prop where
  later : Later s s'
  fds : s'.fds = s.fds
  err : s.err = true → s'.err = true
  all : ∃ os', os' <+: os ∧ (s'.err = false → os' = os) ∧ s'.wrote = s.wrote ++ os'.map fun o => (n, o.1, o.2)

theorem order_gives (s : Sys) (n : Nat) (name text : Text) : Gives s (order s n name text) n [(name, text)] := by
  have h := write_wrote s n name text
  unfold order
  generalize s.write n name text = x at *
  obtain ⟨r, s1⟩ := x
  cases r with
  | error e => exact ⟨h.later, h.fds, fun _ => rfl, [], List.nil_prefix, err_absurd, h.wrote⟩
  | ok u => exact ⟨h.later, h.fds, fun e => h.err.trans e, [(name, text)], List.prefix_refl _, fun _ => rfl, h.wrote⟩

theorem order2_gives (s : Sys) (n : Nat) (name text name' text' : Text) :
    Gives s (order2 s n name text name' text') n [(name, text), (name', text')] := by
  have h := write_wrote s n name text
  unfold order2
  generalize s.write n name text = x at *
  obtain ⟨r, s1⟩ := x
  cases r with
  | error e => exact ⟨h.later, h.fds, fun _ => rfl, [], List.nil_prefix, err_absurd, h.wrote⟩
  | ok u =>
    have h' := order_gives s1 n name' text'
    obtain ⟨os', p1, p2, p3⟩ := h'.all
    refine ⟨h.later.trans h'.later, h'.fds.trans h.fds, fun e => h'.err (h.err.trans e), (name, text) :: os', ?_, ?_, ?_⟩
    · obtain ⟨t, e⟩ := p1
      exact ⟨t, by rw [List.cons_append, e]⟩
    · intro e; rw [p2 e]
    · show (order s1 n name' text').wrote = _
      rw [p3, h.wrote]
      simp [okay]

theorem motorRead_spec (s : Sys) (n : Nat) (name : Text) : Stay s (motorRead s n name).2 ∧
    ((motorRead s n name).2.err = false → ∃ t k, Mid s (motorRead s n name).2 n name t ∧ Number t k ∧ (motorRead s n name).1 = .num (ratio k 360)) := by
  have h := readInt_spec s n name
  unfold motorRead
  generalize s.readInt n name = x at *
  obtain ⟨r, s1⟩ := x
  cases r with
  | error e => exact ⟨h.1.stay.error, err_absurd⟩
  | ok k =>
    obtain ⟨t, hn, hk⟩ := h.2 k rfl
    exact ⟨h.1.stay, fun _ => ⟨t, k, mid_end h.1.later hn, hk, rfl⟩⟩

theorem fmul_comm' (a b : BitVec 32) : fmul a b = fmul b a := by
  unfold fmul
  rw [Bool.or_comm (isNanF a), Bool.or_comm (isInfF a), Bool.or_comm (isFin a && fval a == 0), Nat.mul_comm,
    show (fneg a != fneg b) = (fneg b != fneg a) by cases fneg a <;> cases fneg b <;> rfl]

theorem driverSpeed_eq (f : BitVec 32) : driverSpeed f = speed f := by
  unfold driverSpeed speed units
  dsimp only
  generalize whole (fmul f (intToF 360)) = k
  split <;> split <;> omega

theorem gives_err (s : Sys) (n : Nat) (os : List (Text × Text)) : Gives s s.error n os :=
  ⟨(Later.refl s).error, rfl, fun _ => rfl, [], List.nil_prefix, err_absurd, by show s.wrote = _; simp⟩

theorem Stay.gives {s s' : Sys} (h : Stay s s') (n : Nat) : Gives s s' n [] :=
  ⟨h.later, h.fds, h.err, [], List.prefix_refl _, fun _ => rfl, by rw [h.wrote]; simp⟩

/-- What a call does with the directory of a motor. -/
theorem motorFn_spec (s : Sys) (n : Nat) (c : MCall) (hc : ∀ t, c ≠ .talkto t) :
    Gives s (motorFn s n c).2 n ((orders c).getD []) ∧ (orders c = none → (motorFn s n c).2.err = true) ∧
      ∀ name, asks c = some name → (motorFn s n c).2.err = false →
        ∃ t k, Mid s (motorFn s n c).2 n name t ∧ Number t k ∧ (motorFn s n c).1 = .num (ratio k 360) := by
  have no : ∀ {P : Text → Prop}, ∀ name, (none : Option Text) = some name → P name := fun _ h => by cases h
  have some' : ∀ {l : List (Text × Text)} {P : Prop}, some l = none → P := fun h => by cases h
  cases c with
  | talkto t => exact absurd rfl (hc t)
  | setpower a =>
    cases a with
    | num f => rw [show orders (.setpower (.num f)) = some [("speed_sp".toList, dec (speed f))] from rfl, ← driverSpeed_eq]; exact ⟨order_gives .., some', no⟩
    | other => exact ⟨gives_err .., fun _ => rfl, no⟩
  | setleft => exact ⟨order_gives .., some', no⟩
  | setright => exact ⟨order_gives .., some', no⟩
  | on => exact ⟨order_gives .., some', no⟩
  | off => exact ⟨order_gives .., some', no⟩
  | onfor a =>
    cases a with
    | num f => exact ⟨order2_gives .., some', no⟩
    | other => exact ⟨gives_err .., fun _ => rfl, no⟩
  | setposition a =>
    cases a with
    | num f => exact ⟨order2_gives .., some', no⟩
    | other => exact ⟨gives_err .., fun _ => rfl, no⟩
  | position =>
    have h := motorRead_spec s n "position".toList
    refine ⟨h.1.gives n, some', fun name hn he => ?_⟩
    cases hn
    exact h.2 he
  | coast => exact ⟨order_gives .., some', no⟩
  | brake => exact ⟨order_gives .., some', no⟩
  | hold => exact ⟨order_gives .., some', no⟩
  | rampUp a =>
    cases a with
    | num f =>
      rw [show orders (.rampUp (.num f)) = some [("ramp_up_sp".toList, dec (units 1000 f))] from rfl]
      unfold units
      rw [fmul_comm']
      exact ⟨order_gives .., some', no⟩
    | other => exact ⟨gives_err .., fun _ => rfl, no⟩
  | rampDown a =>
    cases a with
    | num f =>
      rw [show orders (.rampDown (.num f)) = some [("ramp_down_sp".toList, dec (units 1000 f))] from rfl]
      unfold units
      rw [fmul_comm']
      exact ⟨order_gives .., some', no⟩
    | other => exact ⟨gives_err .., fun _ => rfl, no⟩
  | read t =>
    have h := motorRead_spec s n "speed".toList
    refine ⟨h.1.gives n, some', fun name hn he => ?_⟩
    cases hn
    exact h.2 he

/-- Everything about one call. -/
structure CallOk (st : Motors) (p : Option Nat) (c : MCall) (r : Val × Motors) : Prop where
  later : Later st.sys r.2.sys
  fds : r.2.sys.fds = st.sys.fds
  table : MTableOk r.2
  /-- no error: one motor, of the port or number 0, has got all the orders, and shows what is returned -/
  good : r.2.sys.err = false → ∃ q os n d, p = some q ∧ orders c = some os ∧ r.2.sys.world[n]? = some d ∧ (outPort q <+: d.address ∨ n = 0) ∧
    r.2.sys.wrote = st.sys.wrote ++ os.map (fun o => (n, o.1, o.2)) ∧
    ∀ name, asks c = some name → ∃ t k, Mid st.sys r.2.sys n name t ∧ Number t k ∧ r.1 = .num (ratio k 360)
  /-- in any case: at most a beginning of the orders, to one such motor -/
  bad : r.2.sys.wrote = st.sys.wrote ∨ ∃ q os' n d, p = some q ∧ os' <+: (orders c).getD [] ∧ r.2.sys.world[n]? = some d ∧
    (outPort q <+: d.address ∨ n = 0) ∧ r.2.sys.wrote = st.sys.wrote ++ os'.map (fun o => (n, o.1, o.2))

theorem withMotor_spec (st : Motors) (p : Nat) (c : MCall) (hc : ∀ t, c ≠ .talkto t) (ht : MTableOk st) :
    CallOk st (some p) c (withMotor st p c) ∧ (withMotor st p c).2.sel = st.sel := by
  have h := getMotor_spec st p ht
  unfold withMotor
  generalize getMotor st p = x at *
  obtain ⟨r, st1⟩ := x
  cases r with
  | none =>
    obtain ⟨h1, h2, h3, h4⟩ := h.1 st1 rfl
    exact ⟨⟨h1.later, h1.fds, h2, fun e => (by rw [h3] at e; cases e), .inl h1.wrote⟩, h4⟩
  | some n =>
    have ho := h.2 n st1 rfl
    obtain ⟨d, hd, ha⟩ := ho.dev
    have hf := motorFn_spec st1.sys n c hc
    dsimp only
    generalize motorFn st1.sys n c = y at *
    obtain ⟨v, s2⟩ := y
    obtain ⟨g, gn, ga⟩ := hf
    dsimp only at *
    obtain ⟨os', p1, p2, p3⟩ := g.all
    obtain ⟨d', e1, e2, _⟩ := g.later.same n d hd
    have ha' : outPort p <+: d'.address ∨ n = 0 := by rw [e2]; exact ha
    refine ⟨⟨ho.later.trans g.later, ?_, ho.table.later (s := s2) g.later, fun e => ?_, .inr ⟨p, os', n, d', rfl, p1, e1, ha', ?_⟩⟩, ho.sel⟩
    · show s2.fds.erase _ = _
      rw [g.fds, ho.fds]; simp
    · cases hor : orders c with
      | none =>
        have := gn hor
        have e : s2.err = false := e
        rw [this] at e; cases e
      | some os =>
        refine ⟨p, os, n, d', rfl, rfl, e1, ha', ?_, ?_⟩
        · show s2.wrote = _
          rw [p3, ho.wrote, p2 e, hor]; rfl
        · intro name hn
          obtain ⟨t, k, h1, h2, h3⟩ := ga name hn e
          exact ⟨t, k, h1.wide ho.later (Later.refl _), h2, h3⟩
    · show s2.wrote = _
      rw [p3, ho.wrote]

/-- The state before a call. -/
abbrev mbefore (st : Motors) (sched : List Slot) : Motors := { st with sys := { st.sys with sched := sched, err := false } }

theorem callMotor_spec (st : Motors) (c : MCall) (sched : List Slot) (hc : ∀ t, c ≠ .talkto t) (ht : MTableOk st) :
    CallOk (mbefore st sched) (about st.sel c) c (callMotor st c sched) ∧ (callMotor st c sched).2.sel = st.sel := by
  have ht' : MTableOk (mbefore st sched) := ht
  have fail : ∀ p c, CallOk (mbefore st sched) p c (.none, { mbefore st sched with sys := (mbefore st sched).sys.error }) :=
    fun p c => ⟨Later.refl _, rfl, ht', err_absurd, .inl rfl⟩
  have hread : ∀ t, CallOk (mbefore st sched) (about st.sel (.read t)) (.read t) (callMotor st (.read t) sched) ∧ (callMotor st (.read t) sched).2.sel = st.sel := by
    intro t
    unfold callMotor
    dsimp only
    rw [motorPort_eq]
    show CallOk _ (portOf t) _ _ ∧ _
    cases hp : portOf t with
    | none => exact ⟨fail _ _, rfl⟩
    | some p => exact withMotor_spec (mbefore st sched) p (.read t) (fun t h => by cases h) ht'
  have hsel : ∀ c, (∀ t, c ≠ .talkto t) → (∀ t, c ≠ .read t) →
      CallOk (mbefore st sched) st.sel c (match st.sel with
        | none => (.none, { mbefore st sched with sys := (mbefore st sched).sys.error })
        | some p => withMotor (mbefore st sched) p c) ∧ (match st.sel with
        | none => ((.none, { mbefore st sched with sys := (mbefore st sched).sys.error }) : Val × Motors)
        | some p => withMotor (mbefore st sched) p c).2.sel = st.sel := by
    intro c hc _
    cases hs : st.sel with
    | none => exact ⟨fail _ _, hs⟩
    | some p =>
      have := withMotor_spec (mbefore st sched) p c hc ht'
      exact ⟨this.1, this.2.trans hs⟩
  cases c with
  | talkto t => exact absurd rfl (hc t)
  | read t => exact hread t
  | _ => exact hsel _ (fun t h => by cases h) (fun t h => by cases h)

theorem talkto_spec (st : Motors) (t : Text) (sched : List Slot) :
    (callMotor st (.talkto t) sched).2.sys.fds = st.sys.fds ∧ (callMotor st (.talkto t) sched).2.sys.wrote = st.sys.wrote ∧
    (callMotor st (.talkto t) sched).2.motors = st.motors ∧ (callMotor st (.talkto t) sched).2.sys.world = st.sys.world ∧
    (callMotor st (.talkto t) sched).2.sel = ((portOf t).orElse fun _ => st.sel) ∧
    (callMotor st (.talkto t) sched).2.sys.err = (portOf t).isNone := by
  unfold callMotor
  dsimp only
  rw [motorPort_eq]
  cases portOf t with
  | none => exact ⟨rfl, rfl, rfl, rfl, rfl, rfl⟩
  | some p => exact ⟨rfl, rfl, rfl, rfl, rfl, rfl⟩

theorem mhistory_snoc (w : World) (cs : List (MCall × List Slot)) (c : MCall × List Slot) :
    mhistory w (cs ++ [c]) = (callMotor (mhistory w cs) c.1 c.2).2 := by
  unfold mhistory; rw [List.foldl_append]; rfl

theorem chosen_snoc (cs : List MCall) (c : MCall) : chosen (cs ++ [c]) = match c with
    | .talkto t => (portOf t).orElse fun _ => chosen cs
    | _ => chosen cs := by
  unfold chosen; rw [List.foldl_append]; rfl

theorem list_snoc_ind {α : Type} {P : List α → Prop} (h0 : P []) (h1 : ∀ l a, P l → P (l ++ [a])) (l : List α) : P l := by
  have : ∀ l : List α, P l.reverse := by
    intro l
    induction l with
    | nil => exact h0
    | cons a l ih => rw [List.reverse_cons]; exact h1 _ a ih
  have := this l.reverse
  rwa [List.reverse_reverse] at this

theorem mhistory_ok (w : World) (cs : List (MCall × List Slot)) :
    MTableOk (mhistory w cs) ∧ (mhistory w cs).sel = chosen (cs.map Prod.fst) ∧ (mhistory w cs).sys.fds = [] := by
  induction cs using list_snoc_ind with
  | h0 => exact ⟨fun p hp => absurd rfl hp, rfl, rfl⟩
  | h1 cs c ih =>
    rw [mhistory_snoc, List.map_append, List.map_cons, List.map_nil, chosen_snoc]
    obtain ⟨c, sched⟩ := c
    obtain ⟨i1, i2, i3⟩ := ih
    by_cases hc : ∃ t, c = .talkto t
    · obtain ⟨t, rfl⟩ := hc
      obtain ⟨t1, t2, t3, t4, t5, t6⟩ := talkto_spec (mhistory w cs) t sched
      refine ⟨?_, ?_, t1.trans i3⟩
      · intro p hp
        rw [t3] at hp ⊢
        rw [t4]
        exact i1 p hp
      · rw [t5, i2]
    · have hc' : ∀ t, c ≠ .talkto t := fun t h => hc ⟨t, h⟩
      obtain ⟨h1, h2⟩ := callMotor_spec (mhistory w cs) c sched hc' i1
      refine ⟨h1.table, ?_, h1.fds.trans i3⟩
      rw [h2, i2]
      cases c <;> first | rfl | exact absurd rfl (hc' _)

/-! ## When nothing moves -/

theorem write_still {s : Sys} (h : Still s) {n : Nat} {d : Dev} (hd : s.world[n]? = some d) (ha : d.alive = true) {name : Text}
    (hn : (d.attr name).isSome = true) (text : Text) :
    s.write n name text = (.ok (), { tick (tick s) with wrote := s.wrote ++ [(n, name, text)] }) := by
  obtain ⟨h1, h2⟩ := call_still h
  have ho : s.openFile n name = (.ok (), { tick s with fds := .file n name :: s.fds }) := by
    unfold Sys.openFile
    generalize s.call = x at *
    obtain ⟨sl, s1⟩ := x
    dsimp only at *
    rw [h1, h2]
    dsimp only
    have : (tick s).world[n]? = some d := hd
    rw [this]
    dsimp only
    rw [if_pos ⟨ha, hn⟩]
    rfl
  unfold Sys.write
  rw [ho]
  dsimp only
  have hw : ∀ s' : Sys, s'.world = s.world → s'.writeNow n name text = (.ok (), { s' with wrote := s'.wrote ++ [(n, name, text)] }) := by
    intro s' e
    unfold Sys.writeNow
    rw [e, hd]
    dsimp only
    rw [if_pos ha]
  have hl : ∀ s' : Sys, s'.world = s.world → Still s' →
      writeLoop n name text s'.sched s' = (.ok (), { tick s' with wrote := s'.wrote ++ [(n, name, text)] }) := by
    intro s' e hs
    unfold tick
    match hsc : s'.sched with
    | [] =>
      unfold writeLoop
      exact hw { s' with sched := [] } e
    | sl :: r =>
      have hq := hs sl (by rw [hsc]; exact List.mem_cons_self ..)
      unfold writeLoop
      rw [hq.1, hq.2]
      exact hw { s' with sched := r } e
  have hs' : Still { tick s with fds := .file n name :: s.fds } := h.tick
  have := hl { tick s with fds := .file n name :: s.fds } rfl hs'
  dsimp only at this
  rw [this]
  dsimp only
  unfold Sys.close tick
  simp

/-- All the motors that are attached are on ports of the EV3; there is one at port `p`, number `n`; and it is number 0, or number 0 has been detached. -/
structure MSimple (w : World) (n : Nat) (p : Nat) : Prop where
  port : p < 4
  all : ∀ (m : Nat) (d : Dev), w[m]? = some d → d.alive = true → ∃ q : Nat, q < 4 ∧ d.address = outPort q ∧ (q = p → m = n)
  here : ∃ d, w[n]? = some d ∧ d.alive = true ∧ d.address = outPort p
  zero : n = 0 ∨ ∀ d, w[0]? = some d → d.alive = false

theorem outPort_inj {p q : Nat} (hp : p < 4) (hq : q < 4) (h : outPort p <+: outPort q) : p = q := by
  have hp : p = 0 ∨ p = 1 ∨ p = 2 ∨ p = 3 := by omega
  have hq : q = 0 ∨ q = 1 ∨ q = 2 ∨ q = 3 := by omega
  rcases hp with rfl | rfl | rfl | rfl <;> rcases hq with rfl | rfl | rfl | rfl <;> first | rfl | (exfalso; revert h; decide)

/-- The state of a discovery in a still world. -/
structure MDuring (w : World) (n p : Nat) (st0 st : Motors) (seen : Bool) : Prop where
  still : Still st.sys
  world : st.sys.world = w
  fds : st.sys.fds = st0.sys.fds
  err : st.sys.err = st0.sys.err
  wrote : st.sys.wrote = st0.sys.wrote
  seen : seen = true → st.motors p = n

theorem mdiscover2_still {st : Motors} (h : Still st.sys) {n : Nat} {d : Dev} (hd : st.sys.world[n]? = some d) (ha : d.alive = true) {q : Nat}
    (hq : q < 4) (hp : d.address = outPort q) :
    mdiscover2 st n = (true, { st with sys := tick (tick st.sys), motors := fun r => if r = q then n else st.motors r }) := by
  have hn : Now st.sys.world n "address".toList d.address := ⟨d, hd, ha, by unfold Dev.attr; rw [if_pos rfl]⟩
  unfold mdiscover2
  rw [read_still h hn, hp]
  have : q = 0 ∨ q = 1 ∨ q = 2 ∨ q = 3 := by omega
  rcases this with h | h | h | h <;> subst h <;> rfl

theorem mdiscover1_still {w : World} {n p : Nat} {st0 st : Motors} {b : Bool} (hs : MSimple w n p) (h : MDuring w n p st0 st b) (m : Nat) :
    (mdiscover1 st m).1 = true ∧ MDuring w n p st0 (mdiscover1 st m).2 (b || m == n) := by
  unfold mdiscover1
  have hw := h.world
  match hd : st.sys.world[m]? with
  | none =>
    rw [openDev_still_none h.still hd]
    have hne : (m == n) = false := by
      obtain ⟨d, e, _⟩ := hs.here
      have : m ≠ n := by intro e'; subst e'; rw [hw] at hd; rw [e] at hd; cases hd
      simp [this]
    rw [hne, Bool.or_false]
    exact ⟨rfl, h.still.tick, hw, h.fds, h.err, h.wrote, h.seen⟩
  | some d =>
    rw [openDev_still h.still hd]
    by_cases ha : d.alive = true
    · rw [if_pos ha]
      dsimp only
      obtain ⟨q, q4, hq, hun⟩ := hs.all m d (by rw [← hw]; exact hd) ha
      have ht : Still { tick st.sys with fds := .dev m :: st.sys.fds } := h.still.tick
      rw [mdiscover2_still (st := { st with sys := { tick st.sys with fds := .dev m :: st.sys.fds } }) (d := d) ht hd ha q4 hq]
      refine ⟨rfl, ht.tick.tick, hw, ?_, h.err, h.wrote, ?_⟩
      · show (Fd.dev m :: st.sys.fds).erase (.dev m) = _
        rw [List.erase_cons_head]; exact h.fds
      · dsimp only
        intro hb
        by_cases hpq : p = q
        · rw [if_pos hpq]; exact hun hpq.symm
        · rw [if_neg hpq]
          apply h.seen
          cases b with
          | true => rfl
          | false =>
            have hmn : m = n := by simpa using hb
            subst hmn
            obtain ⟨d', e1, _, e3⟩ := hs.here
            rw [hw, e1] at hd; cases hd
            exact absurd (outPort_inj hs.port q4 (by rw [← hq, ← e3]; exact List.prefix_refl _)) hpq
    · rw [if_neg ha]
      have hne : (m == n) = false := by
        obtain ⟨d', e, e', _⟩ := hs.here
        have : m ≠ n := by intro e''; subst e''; rw [hw, e] at hd; cases hd; exact ha e'
        simp [this]
      rw [hne, Bool.or_false]
      exact ⟨rfl, h.still.tick, hw, h.fds, h.err, h.wrote, h.seen⟩

theorem mdiscoverAll_still {w : World} {n p : Nat} {st0 : Motors} (hs : MSimple w n p) : ∀ (es : List Entry) (st : Motors) (b : Bool),
    MDuring w n p st0 st b → Entry.other ∉ es →
    (mdiscoverAll st es).1 = true ∧ MDuring w n p st0 (mdiscoverAll st es).2 (b || es.contains (.dev n)) := by
  intro es
  induction es with
  | nil => intro st b h _; simpa using ⟨rfl, h⟩
  | cons e es ih =>
    intro st b h ho
    have ho' : Entry.other ∉ es := fun hm => ho (List.mem_cons_of_mem _ hm)
    cases e with
    | other => exact absurd (List.mem_cons_self ..) ho
    | dot =>
      unfold mdiscoverAll
      have := ih st b h ho'
      simpa using this
    | dev m =>
      obtain ⟨h1, h2⟩ := mdiscover1_still hs h m
      unfold mdiscoverAll
      generalize mdiscover1 st m = x at *
      obtain ⟨r, st1⟩ := x
      dsimp only at *
      subst h1
      dsimp only
      have := ih st1 _ h2 ho'
      rw [Bool.or_assoc] at this
      have e : (m == n || es.contains (Entry.dev n)) = (Entry.dev m :: es).contains (Entry.dev n) := by
        rw [List.contains_cons]
        congr 1
        by_cases hmn : m = n
        · subst hmn; simp
        · have h2 : ¬Entry.dev n = Entry.dev m := by intro e; injection e with e; exact hmn e.symm
          rw [beq_eq_false_iff_ne.2 hmn, beq_eq_false_iff_ne.2 h2]
      rw [e] at this
      exact this

theorem mdiscover_still {w : World} {n p : Nat} {st : Motors} (hs : MSimple w n p) (hstill : Still st.sys) (hw : st.sys.world = w)
    (hlen : 2 ≤ st.sys.sched.length) (hsl : ∀ sl ∈ st.sys.sched, Entry.other ∉ sl.names ∧ Entry.dev n ∈ sl.names) :
    (mdiscover st).1 = true ∧ MDuring w n p st (mdiscover st).2 true := by
  unfold mdiscover
  dsimp only
  match hsc : st.sys.sched with
  | [] => rw [hsc] at hlen; simp at hlen
  | [_] => rw [hsc] at hlen; simp at hlen
  | sa :: sb :: r =>
    have ha := hstill sa (by rw [hsc]; simp)
    have hb := hstill sb (by rw [hsc]; simp)
    have hb' := hsl sb (by rw [hsc]; simp)
    have ec : st.sys.call = (sa, { st.sys with sched := sb :: r }) := by
      unfold Sys.call; rw [hsc]; dsimp only; rw [ha.1]; rfl
    rw [ec]
    dsimp only
    rw [ha.2]
    simp only [Option.isSome_none, Bool.false_eq_true, if_false]
    have ed : Sys.call { st.sys with sched := sb :: r, fds := .classDir :: st.sys.fds } =
        (sb, { st.sys with sched := r, fds := .classDir :: st.sys.fds }) := by
      unfold Sys.call; dsimp only; rw [hb.1]; rfl
    rw [ed]
    dsimp only
    rw [hb.2]
    simp only [Option.isSome_none, Bool.false_eq_true, if_false]
    have hd := mdiscoverAll_still (st0 := { sys := { st.sys with sched := r, fds := .classDir :: st.sys.fds }, motors := fun _ => 0, sel := st.sel }) hs sb.names
      { sys := { st.sys with sched := r, fds := .classDir :: st.sys.fds }, motors := fun _ => 0, sel := st.sel } false
      ⟨fun sl hm => hstill sl (by rw [hsc]; exact List.mem_cons_of_mem _ (List.mem_cons_of_mem _ hm)), hw, rfl, rfl, rfl, fun h => by cases h⟩ hb'.1
    obtain ⟨d1, d2⟩ := hd
    have e : (false || sb.names.contains (Entry.dev n)) = true := by simpa using hb'.2
    rw [e] at d2
    refine ⟨d1, d2.still, d2.world, ?_, d2.err, d2.wrote, d2.seen⟩
    show List.erase _ _ = _
    rw [d2.fds]; simp

theorem getMotor_still {w : World} {n p : Nat} {st : Motors} (hs : MSimple w n p) (ht : MTableOk st) (hw : st.sys.world = w)
    (hc : Calm w st.sys.sched) :
    ∃ st', getMotor st p = (some n, st') ∧ Still st'.sys ∧ st'.sys.world = w ∧ st'.sys.err = st.sys.err ∧ st'.sys.wrote = st.sys.wrote := by
  obtain ⟨d, hd, ha, hp⟩ := hs.here
  have hstill : Still st.sys := fun sl hm => ⟨(hc.slots sl hm).1, (hc.slots sl hm).2.1⟩
  have hsl : ∀ sl ∈ st.sys.sched, Entry.other ∉ sl.names ∧ Entry.dev n ∈ sl.names :=
    fun sl hm => ⟨(hc.slots sl hm).2.2.1, (hc.slots sl hm).2.2.2 n d hd ha⟩
  unfold getMotor
  -- opening after a discovery
  have second : ∀ st1 : Motors, Still st1.sys → st1.sys.world = w → st1.sys.err = st.sys.err → st1.sys.wrote = st.sys.wrote → 2 ≤ st1.sys.sched.length →
      (∀ sl ∈ st1.sys.sched, Entry.other ∉ sl.names ∧ Entry.dev n ∈ sl.names) →
      ∃ st', (match mdiscover st1 with
        | (false, st) => (none, st)
        | (true, st) =>
          match openMotor st p with
          | (.ok n, st) => (some n, st)
          | (.error _, st) => (none, { st with sys := st.sys.error })) = (some n, st') ∧ Still st'.sys ∧ st'.sys.world = w ∧
            st'.sys.err = st.sys.err ∧ st'.sys.wrote = st.sys.wrote := by
    intro st1 h1 h2 h3 h3' h4 h5
    obtain ⟨d1, d2⟩ := mdiscover_still hs h1 h2 h4 h5
    generalize mdiscover st1 = x at *
    obtain ⟨r, st2⟩ := x
    dsimp only at *
    subst d1
    dsimp only
    have hn := d2.seen rfl
    unfold openMotor
    rw [hn, openDev_still d2.still (by rw [d2.world]; exact hd), if_pos ha]
    exact ⟨_, rfl, d2.still.tick, d2.world, d2.err.trans h3, d2.wrote.trans h3'⟩
  have hlen : 2 ≤ (tick st.sys).sched.length := by
    show 2 ≤ st.sys.sched.tail.length
    rw [List.length_tail]; have := hc.len; omega
  have again : st.sys.openDev (st.motors p) = (.error .noent, tick st.sys) →
      ∃ st', (match openMotor st p with
        | (.ok n, st) => (some n, st)
        | (.error _, st) =>
          match mdiscover st with
          | (false, st) => (none, st)
          | (true, st) =>
            match openMotor st p with
            | (.ok n, st) => (some n, st)
            | (.error _, st) => (none, { st with sys := st.sys.error })) = (some n, st') ∧ Still st'.sys ∧ st'.sys.world = w ∧
              st'.sys.err = st.sys.err ∧ st'.sys.wrote = st.sys.wrote := by
    intro e
    have e' : openMotor st p = (.error .noent, { st with sys := tick st.sys }) := by unfold openMotor; rw [e]
    rw [e']
    exact second { st with sys := tick st.sys } hstill.tick hw rfl rfl hlen fun sl hm => hsl sl (List.mem_of_mem_tail hm)
  have good : ∀ d', st.sys.world[st.motors p]? = some d' → d'.alive = true → st.motors p = n →
      ∃ st', (match openMotor st p with
        | (.ok n, st) => (some n, st)
        | (.error _, st) =>
          match mdiscover st with
          | (false, st) => (none, st)
          | (true, st) =>
            match openMotor st p with
            | (.ok n, st) => (some n, st)
            | (.error _, st) => (none, { st with sys := st.sys.error })) = (some n, st') ∧ Still st'.sys ∧ st'.sys.world = w ∧
              st'.sys.err = st.sys.err ∧ st'.sys.wrote = st.sys.wrote := by
    intro d' hd' ha' hn
    have e' : openMotor st p = (.ok n, { st with sys := { tick st.sys with fds := .dev n :: st.sys.fds } }) := by
      unfold openMotor
      rw [openDev_still hstill hd', if_pos ha', hn]
    rw [e']
    exact ⟨_, rfl, hstill.tick, hw, rfl, rfl⟩
  match hd' : st.sys.world[st.motors p]? with
  | none => exact again (openDev_still_none hstill hd')
  | some d' =>
    by_cases ha' : d'.alive = true
    · by_cases h0 : st.motors p = 0
      · rcases hs.zero with hz | hz
        · exact good d' hd' ha' (h0.trans hz.symm)
        · rw [h0, hw] at hd'
          rw [hz d' hd'] at ha'; cases ha'
      · obtain ⟨d'', e1, e2⟩ := ht p h0
        rw [hd'] at e1; cases e1
        obtain ⟨q, q4, hq, hun⟩ := hs.all (st.motors p) d' (by rw [← hw]; exact hd') ha'
        have : p = q := outPort_inj hs.port q4 (by rw [← hq]; exact e2)
        exact good d' hd' ha' (hun this.symm)
    · refine again ?_
      rw [openDev_still hstill hd', if_neg ha']

/-- In a still world, with the files there, a call gives all its orders without an error. -/
theorem motorFn_still {s : Sys} (h : Still s) {n : Nat} {d : Dev} (hd : s.world[n]? = some d) (ha : d.alive = true) {c : MCall}
    (hc : ∀ t, c ≠ .talkto t) {os : List (Text × Text)} (ho : orders c = some os) (hf : ∀ o ∈ os, (d.attr o.1).isSome = true)
    (hr : ∀ name, asks c = some name → ∃ t k, d.attr name = some t ∧ Number t k) : (motorFn s n c).2.err = s.err := by
  have one : ∀ name text, os = [(name, text)] → (order s n name text).err = s.err := by
    intro name text e
    unfold order
    rw [write_still h hd ha (hf (name, text) (by rw [e]; simp))]
    rfl
  have two : ∀ name text name' text', os = [(name, text), (name', text')] → (order2 s n name text name' text').err = s.err := by
    intro name text name' text' e
    unfold order2 order
    rw [write_still h hd ha (hf (name, text) (by rw [e]; simp))]
    dsimp only
    rw [write_still (s := { tick (tick s) with wrote := s.wrote ++ [(n, name, text)] }) h.tick.tick hd ha (hf (name', text') (by rw [e]; simp))]
    rfl
  have rd : ∀ name, asks c = some name → (motorRead s n name).2.err = s.err := by
    intro name hn
    obtain ⟨t, k, ht, hk⟩ := hr name hn
    unfold motorRead
    rw [readInt_still h ⟨d, hd, ha, ht⟩ hk]
    rfl
  cases c with
  | talkto t => exact absurd rfl (hc t)
  | setpower a =>
    cases a with
    | num f => cases ho; rw [← driverSpeed_eq] at one; exact one _ _ rfl
    | other => cases ho
  | onfor a =>
    cases a with
    | num f => cases ho; exact two _ _ _ _ rfl
    | other => cases ho
  | setposition a =>
    cases a with
    | num f => cases ho; exact two _ _ _ _ rfl
    | other => cases ho
  | rampUp a =>
    cases a with
    | num f => cases ho; unfold units at one; rw [fmul_comm'] at one; exact one _ _ rfl
    | other => cases ho
  | rampDown a =>
    cases a with
    | num f => cases ho; unfold units at one; rw [fmul_comm'] at one; exact one _ _ rfl
    | other => cases ho
  | position => exact rd _ rfl
  | read t => exact rd _ rfl
  | _ => cases ho; exact one _ _ rfl

theorem withMotor_still {w : World} {n p : Nat} {st : Motors} (hs : MSimple w n p) (ht : MTableOk st) (hw : st.sys.world = w)
    (hcalm : Calm w st.sys.sched) {c : MCall} (hc : ∀ t, c ≠ .talkto t) {os : List (Text × Text)} (ho : orders c = some os)
    (hf : ∀ d, w[n]? = some d → (∀ o ∈ os, (d.attr o.1).isSome = true) ∧ ∀ name, asks c = some name → ∃ t k, d.attr name = some t ∧ Number t k) :
    (withMotor st p c).2.sys.err = st.sys.err ∧
      (st.sys.err = false → (withMotor st p c).2.sys.wrote = st.sys.wrote ++ os.map fun o => (n, o.1, o.2)) := by
  obtain ⟨st', e1, e2, e3, e4, e5⟩ := getMotor_still hs ht hw hcalm
  obtain ⟨d, hd, ha, _⟩ := hs.here
  unfold withMotor
  rw [e1]
  dsimp only
  have h1 := motorFn_still (s := st'.sys) (n := n) (d := d) e2 (by rw [e3]; exact hd) ha hc ho (hf d hd).1 (hf d hd).2
  have h2 := (motorFn_spec st'.sys n c hc).1
  generalize motorFn st'.sys n c = y at *
  obtain ⟨v, s2⟩ := y
  dsimp only at *
  refine ⟨h1.trans e4, fun e => ?_⟩
  obtain ⟨os', _, p2, p3⟩ := h2.all
  show s2.wrote = _
  rw [p3, e5, p2 (h1.trans (e4.trans e)), ho]
  rfl

end Snek.Ev3
