import Verif.Proofs.Ev3Calm
/-!
# C87: the sensors of the LEGO EV3

A history is any list of calls, each with a schedule that says what happens in the world up to and between its system calls: sensors are
attached and detached, readings change, calls fail. `inPort p` is the address of port `p`; `Decodes` (`Verif/Spec/Ev3.lean`) is the manual's reading of the files.
-/
namespace Snek.Ev3

/-- The state before a call. -/
abbrev before (st : Sensors) (sched : List Slot) : Sensors := { st with sys := { st.sys with sched := sched, err := false } }

/-- **A reading is of the sensor asked for.** Whatever has happened before and happens meanwhile, if `read(p)` returns without an error then `p` is a port, and
the value is what the files of a sensor that was attached to that port showed during the call. -/
theorem C87_sound (w : World) (cs : List (SCall × List Slot)) (p : Int) (sched : List Slot)
    (h : (callSensor (history w cs) (.read p) sched).2.sys.err = false) :
    1 ≤ p ∧ p ≤ 4 ∧ ∃ used n d, sched = used ++ (callSensor (history w cs) (.read p) sched).2.sys.sched ∧
      (callSensor (history w cs) (.read p) sched).2.sys.world[n]? = some d ∧ inPort p <+: d.address ∧
      Decodes (Shown (history w cs).sys.world used n) d.driver (callSensor (history w cs) (.read p) sched).1 := by
  have ht : TableOk (before (history w cs) sched) := tableOk_history w cs
  have hr := readSensor_spec (before (history w cs) sched) p ht
  have e : callSensor (history w cs) (.read p) sched = readSensor (before (history w cs) sched) p := rfl
  rw [e] at h ⊢
  obtain ⟨h1, h4, n, d, hd, ha, hv⟩ := hr.val h
  obtain ⟨used, hu, _⟩ := hr.stay.later
  exact ⟨h1, h4, used, n, d, hu, hd, ha, hv.mono fun _ _ hm => hm.shown hu⟩

/-- **Nothing but `read`ing is done**: a reading writes to no device, and the world moves only as the schedule says. -/
theorem C87_readonly (w : World) (cs : List (SCall × List Slot)) (p : Int) (sched : List Slot) :
    (callSensor (history w cs) (.read p) sched).2.sys.wrote = (history w cs).sys.wrote :=
  (readSensor_spec (before (history w cs) sched) p (tableOk_history w cs)).stay.wrote

/-- **A number that is not a port is an error.** -/
theorem C87_port (w : World) (cs : List (SCall × List Slot)) (p : Int) (sched : List Slot) (h : p < 1 ∨ 4 < p) :
    (callSensor (history w cs) (.read p) sched).2.sys.err = true := by
  have hr := (readSensor_spec (before (history w cs) sched) p (tableOk_history w cs)).val
  have e : callSensor (history w cs) (.read p) sched = readSensor (before (history w cs) sched) p := rfl
  rw [e]
  cases hx : (readSensor (before (history w cs) sched) p).2.sys.err with
  | true => rfl
  | false =>
    have := hr hx
    omega

/-- **A mode is set on the light sensor asked for, or on none.** -/
theorem C87_mode (w : World) (cs : List (SCall × List Slot)) (p : Int) (m : Mode) (sched : List Slot) :
    ((callSensor (history w cs) (.mode p m) sched).2.sys.err = true ∧
      (callSensor (history w cs) (.mode p m) sched).2.sys.wrote = (history w cs).sys.wrote) ∨
    (1 ≤ p ∧ p ≤ 4 ∧ ∃ n d, (callSensor (history w cs) (.mode p m) sched).2.sys.world[n]? = some d ∧ inPort p <+: d.address ∧
      d.driver = "lego-ev3-color\n".toList ∧
      (callSensor (history w cs) (.mode p m) sched).2.sys.wrote = (history w cs).sys.wrote ++ [(n, "mode".toList, m.text)]) :=
  (setMode_spec (before (history w cs) sched) p m.text (tableOk_history w cs)).wrote

/-- **No descriptor is left open**, whatever fails. -/
theorem C87_closed (w : World) (cs : List (SCall × List Slot)) : (history w cs).sys.fds = [] := by
  have : ∀ (cs : List (SCall × List Slot)) (st : Sensors), TableOk st →
      (cs.foldl (fun st c => (callSensor st c.1 c.2).2) st).sys.fds = st.sys.fds := by
    intro cs
    induction cs with
    | nil => intro st _; rfl
    | cons c cs ih =>
      intro st ht
      rw [List.foldl_cons, ih _ (tableOk_call ht c.1 c.2)]
      obtain ⟨c, sched⟩ := c
      have ht' : TableOk (before st sched) := ht
      cases c with
      | read p => exact (readSensor_spec (before st sched) p ht').stay.fds
      | mode p m => exact (setMode_spec (before st sched) p m.text ht').fds
  exact this cs (sensors0 w) fun p hp => absurd rfl hp

/-- **Numbers are read whole**: a file that shows the decimal text of any `int` gives that number, though only eleven characters of it are read. -/
theorem C87_numbers {i : Int} (h1 : -(2 ^ 31) ≤ i) (h2 : i < 2 ^ 31) : Number (dec i ++ ['\n']) i := number_dec h1 h2

/-- **A sensor that is there is read.** Partial: the attached sensors must all be of known kinds, and nothing may happen during the call (see the
violations). Then, whatever happened before, `read(p)` gives the value of the sensor at port `p`. -/
theorem C87_complete_partial (w : World) (cs : List (SCall × List Slot)) (n p : Nat) (sched : List Slot) (v : Val)
    (hs : Simple (history w cs).sys.world n p) (hc : Calm (history w cs).sys.world sched)
    (hv : ∀ d, (history w cs).sys.world[n]? = some d → Decodes (Now (history w cs).sys.world n) d.driver v) :
    (callSensor (history w cs) (.read p) sched).1 = v ∧ (callSensor (history w cs) (.read p) sched).2.sys.err = false := by
  have e : callSensor (history w cs) (.read p) sched = readSensor (before (history w cs) sched) p := rfl
  rw [e, readSensor_eq]
  obtain ⟨st', e1, e2, e3, e4⟩ := getSensor_still (st := before (history w cs) sched) hs (tableOk_history w cs) rfl hc
  rw [e1]
  dsimp only
  obtain ⟨d, hd, ha, _⟩ := hs.here
  obtain ⟨s', e5, e6⟩ := readOpen_still (s := st'.sys) (d := d) e2 (by rw [e3]; exact hd) ha (by rw [e3]; exact hv d hd)
  rw [e5]
  exact ⟨rfl, e6.trans e4⟩

/-! ## Examples and violations -/

/-- The files of a sensor. -/
def showing (l : List (String × String)) : Text → Option Text := fun g => (l.find? fun e => e.1.toList = g).map fun e => e.2.toList

/-- A touch sensor, pressed, at port 2. -/
def aTouch : Dev := ⟨true, "ev3-ports:in2\n".toList, "lego-ev3-touch\n".toList, showing [("value0", "1\n")]⟩

/-- An ultrasonic sensor at port 4. -/
def aSonar : Dev := ⟨true, "ev3-ports:in4\n".toList, "lego-ev3-us\n".toList, showing [("value0", "123\n")]⟩

/-- A touch sensor of the NXT at port 1. -/
def aNxt : Dev := ⟨true, "ev3-ports:in1\n".toList, "lego-nxt-touch\n".toList, showing [("value0", "0\n")]⟩

/-- Quiet slots in which a directory lists the given numbers. -/
def calm (ns : List Nat) : List Slot := List.replicate 3 { names := [.dot, .dot] ++ ns.map .dev }

/-- The hypotheses of `C87_complete_partial` are met, and the two sensors read 1 and 12.3. -/
example : Simple (history [aTouch, aSonar] []).sys.world 1 4 ∧ Calm (history [aTouch, aSonar] []).sys.world (calm [1, 0]) ∧
    Decodes (Now (history [aTouch, aSonar] []).sys.world 1) aSonar.driver (.num (ratio 123 10)) := by
  have hw : (history [aTouch, aSonar] []).sys.world = [aTouch, aSonar] := rfl
  rw [hw]
  refine ⟨⟨⟨by decide, by decide⟩, ?_, aSonar, rfl, rfl, inPort4.symm⟩, ⟨by decide, ?_⟩, ?_⟩
  · intro m d hd _
    have hm : (m = 0 ∧ d = aTouch) ∨ (m = 1 ∧ d = aSonar) := by
      rcases m with _ | _ | m
      · left; exact ⟨rfl, (Option.some.inj hd).symm⟩
      · right; exact ⟨rfl, (Option.some.inj hd).symm⟩
      · simp at hd
    rcases hm with ⟨rfl, rfl⟩ | ⟨rfl, rfl⟩
    · exact ⟨⟨1, by decide⟩, 2, by decide, by decide, inPort2.symm, fun h => absurd h (by decide)⟩
    · exact ⟨⟨3, by decide⟩, 4, by decide, by decide, inPort4.symm, fun _ => rfl⟩
  · intro sl hm
    have := List.eq_of_mem_replicate hm
    subst this
    refine ⟨rfl, rfl, by decide, ?_⟩
    intro m d hd _
    rcases m with _ | _ | m
    · decide
    · decide
    · simp at hd
  · exact .near (t := "123\n".toList) rfl ⟨aSonar, rfl, rfl, by decide⟩ (by unfold Number; decide) (by decide)

/-- A touch sensor is detached from port 2 and an ultrasonic one attached there between two readings: the second is of the new one, found afresh. -/
example :
    let st := history [aTouch] [(.read 2, calm [0])]
    (callSensor (history [aTouch] []) (.read 2) (calm [0])).1 = .num 0x3f800000 ∧
    (callSensor st (.read 2)
      ({ evs := [.unplug 0, .plug "ev3-ports:in2\n".toList "lego-ev3-us\n".toList (showing [("value0", "2550\n")])] } :: calm [1])).1 = .num 0x7f800000 := by
  decide +kernel

/-- **Violation.** A sensor of a kind the port does not know makes the others unreadable: with a touch sensor of the NXT at port 1, reading port 2 is an error,
and stays one however often it is tried, because every call begins the search again. -/
theorem C87_violated_foreign :
    (callSensor (history [aNxt, aTouch] []) (.read 2) (calm [0, 1])).2.sys.err = true ∧
    (callSensor (history [aNxt, aTouch] [(.read 2, calm [0, 1]), (.read 2, calm [0, 1])]) (.read 2) (calm [0, 1])).2.sys.err = true := by
  decide +kernel

/-- **Violation.** Detaching a sensor of another port at the wrong moment, after its directory was opened in the search, makes a reading fail. -/
theorem C87_violated_unplug :
    (callSensor (history [aSonar, aTouch] []) (.read 2) (calm [0, 1] ++ [{ evs := [.unplug 0] }])).2.sys.err = true ∧
    (callSensor (history [aSonar, aTouch] []) (.read 2) (calm [0, 1])).2.sys.err = false := by
  decide +kernel

end Snek.Ev3
