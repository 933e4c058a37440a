import Verif.Proofs.Ev3Motors
import Verif.Props.C87
/-!
# C88: the motors of the LEGO EV3

A history is any list of calls, each with a schedule that says what happens in the world up to and between its system calls (see C87). `chosen` is the port of
the latest `talkto` that named one; `orders` and `asks` (`Verif/Spec/Ev3Motors.lean`) say what a call is to write to the files of the motor and which file it
is to read.
-/
namespace Snek.Ev3

/-- **A call without an error is carried out by one motor, that of the chosen port.** Partial: or by motor number 0, whatever its port (see
`C88_violated_first`, `C88_violated_absent`). -/
theorem C88_orders_partial (w : World) (cs : List (MCall × List Slot)) (c : MCall) (sched : List Slot) (hc : ∀ t, c ≠ .talkto t)
    (h : (callMotor (mhistory w cs) c sched).2.sys.err = false) :
    ∃ p os n d, about (chosen (cs.map Prod.fst)) c = some p ∧ orders c = some os ∧
      (callMotor (mhistory w cs) c sched).2.sys.world[n]? = some d ∧ (outPort p <+: d.address ∨ n = 0) ∧
      (callMotor (mhistory w cs) c sched).2.sys.wrote = (mhistory w cs).sys.wrote ++ os.map fun o => (n, o.1, o.2) := by
  obtain ⟨h1, h2, _⟩ := mhistory_ok w cs
  have hx := (callMotor_spec (mhistory w cs) c sched hc h1).1
  rw [h2] at hx
  obtain ⟨p, os, n, d, e1, e2, e3, e4, e5, _⟩ := hx.good h
  exact ⟨p, os, n, d, e1, e2, e3, e4, e5⟩

/-- **With an error at most a beginning of the orders is given**, to one such motor. Partial in the same way. -/
theorem C88_failed_partial (w : World) (cs : List (MCall × List Slot)) (c : MCall) (sched : List Slot) (hc : ∀ t, c ≠ .talkto t) :
    (callMotor (mhistory w cs) c sched).2.sys.wrote = (mhistory w cs).sys.wrote ∨
    ∃ p os n d, about (chosen (cs.map Prod.fst)) c = some p ∧ os <+: (orders c).getD [] ∧
      (callMotor (mhistory w cs) c sched).2.sys.world[n]? = some d ∧ (outPort p <+: d.address ∨ n = 0) ∧
      (callMotor (mhistory w cs) c sched).2.sys.wrote = (mhistory w cs).sys.wrote ++ os.map fun o => (n, o.1, o.2) := by
  obtain ⟨h1, h2, _⟩ := mhistory_ok w cs
  have hx := (callMotor_spec (mhistory w cs) c sched hc h1).1
  rw [h2] at hx
  exact hx.bad

/-- **`position()` and `read("A")` return what the motor shows**, in turns and turns per second. Partial in the same way. -/
theorem C88_read_partial (w : World) (cs : List (MCall × List Slot)) (c : MCall) (sched : List Slot) (hc : ∀ t, c ≠ .talkto t) {name : Text}
    (hn : asks c = some name) (h : (callMotor (mhistory w cs) c sched).2.sys.err = false) :
    ∃ p n d used t k, about (chosen (cs.map Prod.fst)) c = some p ∧
      (callMotor (mhistory w cs) c sched).2.sys.world[n]? = some d ∧ (outPort p <+: d.address ∨ n = 0) ∧
      sched = used ++ (callMotor (mhistory w cs) c sched).2.sys.sched ∧ Shown (mhistory w cs).sys.world used n name t ∧ Number t k ∧
      (callMotor (mhistory w cs) c sched).1 = .num (ratio k 360) := by
  obtain ⟨h1, h2, _⟩ := mhistory_ok w cs
  have hx := (callMotor_spec (mhistory w cs) c sched hc h1).1
  rw [h2] at hx
  obtain ⟨p, os, n, d, e1, e2, e3, e4, e5, e6⟩ := hx.good h
  obtain ⟨t, k, f1, f2, f3⟩ := e6 name hn
  obtain ⟨used, hu, _⟩ := hx.later
  exact ⟨p, n, d, used, t, k, e1, e3, e4, hu, f1.shown hu, f2, f3⟩

/-- **`talkto` chooses a port, or fails and chooses nothing**; it touches no motor. A string is the name of a port if it is one letter, A to D. -/
theorem C88_talkto (w : World) (cs : List (MCall × List Slot)) (t : Text) (sched : List Slot) :
    ((callMotor (mhistory w cs) (.talkto t) sched).2.sys.err = false ↔ t ∈ ["A".toList, "B".toList, "C".toList, "D".toList]) ∧
    (callMotor (mhistory w cs) (.talkto t) sched).2.sys.wrote = (mhistory w cs).sys.wrote := by
  obtain ⟨_, t2, _, _, _, t6⟩ := talkto_spec (mhistory w cs) t sched
  refine ⟨?_, t2⟩
  rw [t6]
  constructor
  · intro h
    match hp : portOf t with
    | none => rw [hp] at h; cases h
    | some p =>
      have h4 := portOf_lt hp
      have := List.find?_some hp
      rw [of_decide_eq_true this]
      have : p = 0 ∨ p = 1 ∨ p = 2 ∨ p = 3 := by omega
      rcases this with rfl | rfl | rfl | rfl <;> decide
  · intro h
    simp only [List.mem_cons, List.not_mem_nil, or_false] at h
    rcases h with rfl | rfl | rfl | rfl <;> decide

/-- **Before a motor is chosen every order is an error**, and goes nowhere. -/
theorem C88_unchosen (w : World) (cs : List (MCall × List Slot)) (c : MCall) (sched : List Slot) (hc : ∀ t, c ≠ .talkto t)
    (hn : about (chosen (cs.map Prod.fst)) c = none) :
    (callMotor (mhistory w cs) c sched).2.sys.err = true ∧ (callMotor (mhistory w cs) c sched).2.sys.wrote = (mhistory w cs).sys.wrote := by
  constructor
  · cases h : (callMotor (mhistory w cs) c sched).2.sys.err with
    | true => rfl
    | false =>
      obtain ⟨p, _, _, _, e, _⟩ := C88_orders_partial w cs c sched hc h
      rw [hn] at e; cases e
  · rcases C88_failed_partial w cs c sched hc with h | ⟨p, _, _, _, e, _⟩
    · exact h
    · rw [hn] at e; cases e

/-- **No descriptor is left open**, whatever fails. -/
theorem C88_closed (w : World) (cs : List (MCall × List Slot)) : (mhistory w cs).sys.fds = [] := (mhistory_ok w cs).2.2

/-- The integer part is an `int`. -/
theorem whole_range (f : BitVec 32) : -(2 ^ 31) ≤ whole f ∧ whole f < 2 ^ 31 := by
  unfold whole fToInt
  split
  · next i h =>
    split at h
    · next hc => cases h; exact ⟨hc.2.1, hc.2.2⟩
    · cases h
  · split
    · exact ⟨by decide, by decide⟩
    · split <;> exact ⟨by decide, by decide⟩

/-- **The speed ordered is one the motor has.** -/
theorem C88_speed (f : BitVec 32) : -1050 ≤ speed f ∧ speed f ≤ 1050 ∧ (-1050 ≤ units 360 f → units 360 f ≤ 1050 → speed f = units 360 f) := by
  unfold speed; omega

/-- **The text of every number fits in the buffer of twelve characters it is printed to**, with its final NUL, and reads back as the number. -/
theorem C88_text (f : BitVec 32) (k : Int) :
    (dec (units k f)).length + 1 ≤ 12 ∧ (dec (speed f)).length + 1 ≤ 12 ∧ Number (dec (units k f) ++ ['\n']) (units k f) := by
  have h := whole_range (fmul f (intToF k))
  have h1 := dec_length h.1 h.2
  have h2 := C88_speed f
  have h3 := dec_length (i := speed f) (by omega) (by omega)
  exact ⟨Nat.succ_le_succ h1, Nat.succ_le_succ h3, number_dec h.1 h.2⟩

/-- **A motor that is there obeys.** Partial: motor number 0 must be the one at the port or have been detached, and nothing may happen during the
call. Then, whatever happened before, the orders are given to the motor at the port, without an error. -/
theorem C88_complete_partial (w : World) (cs : List (MCall × List Slot)) (c : MCall) (n p : Nat) (sched : List Slot) (os : List (Text × Text))
    (hc : ∀ t, c ≠ .talkto t) (hp : about (chosen (cs.map Prod.fst)) c = some p) (ho : orders c = some os)
    (hs : MSimple (mhistory w cs).sys.world n p) (hcalm : Calm (mhistory w cs).sys.world sched)
    (hf : ∀ d, (mhistory w cs).sys.world[n]? = some d →
      (∀ o ∈ os, (d.attr o.1).isSome = true) ∧ ∀ name, asks c = some name → ∃ t k, d.attr name = some t ∧ Number t k) :
    (callMotor (mhistory w cs) c sched).2.sys.err = false ∧
    (callMotor (mhistory w cs) c sched).2.sys.wrote = (mhistory w cs).sys.wrote ++ os.map fun o => (n, o.1, o.2) := by
  obtain ⟨h1, h2, _⟩ := mhistory_ok w cs
  have key := withMotor_still (st := mbefore (mhistory w cs) sched) hs h1 rfl hcalm hc ho hf
  have e : callMotor (mhistory w cs) c sched = withMotor (mbefore (mhistory w cs) sched) p c := by
    rw [← h2] at hp
    cases c with
    | talkto t => exact absurd rfl (hc t)
    | read t =>
      unfold callMotor
      dsimp only
      rw [motorPort_eq]
      have hp : portOf t = some p := hp
      rw [hp]
    | _ =>
      unfold callMotor
      have hp : (mhistory w cs).sel = some p := hp
      unfold mbefore
      dsimp only
      rw [hp]
  rw [e]
  exact ⟨key.1, key.2 rfl⟩

/-! ## Examples and violations -/

/-- The files of a motor. -/
def motorFiles : Text → Option Text :=
  showing [("speed_sp", "0\n"), ("polarity", "normal\n"), ("command", ""), ("time_sp", "0\n"), ("position_sp", "0\n"), ("position", "540\n"), ("speed", "-360\n"),
    ("stop_action", "coast\n"), ("ramp_up_sp", "0\n"), ("ramp_down_sp", "0\n")]

/-- A motor at port A. -/
def motorA : Dev := ⟨true, "ev3-ports:outA\n".toList, "lego-ev3-l-motor\n".toList, motorFiles⟩

/-- A motor at port B. -/
def motorB : Dev := ⟨true, "ev3-ports:outB\n".toList, "lego-ev3-m-motor\n".toList, motorFiles⟩

/-- The hypotheses of the theorems are met: with motor 0 at A and motor 1 at B, `talkto("A")` and `setposition(0.5)` turn motor 0 half a turn;
with motor 0 detached and motor 2 attached at C, `talkto("B")` and `on()` start motor 1. -/
example :
    let st := callMotor (mhistory [motorA, motorB] [(.talkto "A".toList, [])]) (.setposition (.num 0x3f000000)) (calm [0, 1])
    let st' := callMotor (mhistory [motorA, motorB] [(.talkto "B".toList, [])]) .on ({ evs := [.unplug 0] } :: calm [1])
    st.2.sys.err = false ∧
    st.2.sys.wrote = [(0, "position_sp".toList, "180".toList), (0, "command".toList, "run-to-abs-pos".toList)] ∧
    st'.2.sys.err = false ∧ st'.2.sys.wrote = [(1, "command".toList, "run-forever".toList)] := by
  decide +kernel

/-- `position()` is 1.5 turns and `read("A")` −1 turn per second; `setpower(10)` is brought down to 1050 degrees per second. -/
example :
    (callMotor (mhistory [motorA] [(.talkto "A".toList, [])]) .position (calm [0])).1 = .num 0x3fc00000 ∧
    (callMotor (mhistory [motorA] []) (.read "A".toList) (calm [0])).1 = .num 0xbf800000 ∧
    (callMotor (mhistory [motorA] [(.talkto "A".toList, [])]) (.setpower (.num 0x41200000)) (calm [0])).2.sys.wrote =
      [(0, "speed_sp".toList, "1050".toList)] := by
  decide +kernel

/-- The hypotheses of `C88_complete_partial` are met. -/
example : MSimple (mhistory [motorA, motorB] [(.talkto "A".toList, [])]).sys.world 0 0 ∧
    Calm (mhistory [motorA, motorB] [(.talkto "A".toList, [])]).sys.world (calm [0, 1]) ∧
    about (chosen [.talkto "A".toList]) .on = some 0 ∧ (motorA.attr "command".toList).isSome = true := by
  have hw : (mhistory [motorA, motorB] [(.talkto "A".toList, [])]).sys.world = [motorA, motorB] := rfl
  rw [hw]
  refine ⟨⟨by decide, ?_, ⟨motorA, rfl, rfl, by decide⟩, .inl rfl⟩, ⟨by decide, ?_⟩, by decide, by decide⟩
  · intro m d hd _
    rcases m with _ | _ | m
    · obtain rfl : motorA = d := Option.some.inj hd
      exact ⟨0, by decide, by decide, fun _ => rfl⟩
    · obtain rfl : motorB = d := Option.some.inj hd
      exact ⟨1, by decide, by decide, fun h => absurd h (by decide)⟩
    · simp at hd
  · intro sl hm
    have := List.eq_of_mem_replicate hm
    subst this
    refine ⟨rfl, rfl, by decide, ?_⟩
    intro m d hd _
    rcases m with _ | _ | m
    · decide
    · decide
    · simp at hd

/-- **Violation.** With motors at A and B, after a start, `talkto("B")` and `on()` start the motor at A: the table of motors holds 0 for every
port, a motor 0 can be opened, and so no search is ever made. -/
theorem C88_violated_first :
    let st := callMotor (mhistory [motorA, motorB] [(.talkto "B".toList, calm [0, 1])]) .on (calm [0, 1])
    st.2.sys.err = false ∧ st.2.sys.wrote = [(0, "command".toList, "run-forever".toList)] ∧
    ¬ (outPort 1 <+: motorA.address) ∧ outPort 1 <+: motorB.address := by
  decide +kernel

/-- **Violation.** With a motor at A only, `talkto("B")` and `on()` start it, and there is no error. -/
theorem C88_violated_absent :
    let st := callMotor (mhistory [motorA] [(.talkto "B".toList, calm [0])]) .on (calm [0])
    st.2.sys.err = false ∧ st.2.sys.wrote = [(0, "command".toList, "run-forever".toList)] ∧ ¬ (outPort 1 <+: motorA.address) := by
  decide +kernel

end Snek.Ev3
