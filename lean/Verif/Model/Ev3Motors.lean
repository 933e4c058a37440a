import Verif.Model.Ev3
import Verif.Spec.Ev3Motors
/-!
# The motors of the LEGO EV3 (`ports/ev3/motors.c`)

The simplifications of `Verif/Model/Ev3.lean` apply. The type `MCall` of calls is that of the specification. That `talkto` takes its argument for a string
without looking at its type (motors.c:212-222) is not modelled: the argument is a string.
-/
namespace Snek.Ev3

/-- The state of `motors.c`: ports/ev3/motors.c:67-68 `motors`, `selected_motor` (-1 is `none`). -/
structure Motors where
  sys : Sys
  motors : Nat → Nat
  sel : Option Nat

/-- ports/ev3/motors.c:89-111 `discover_motor2` -/
def mdiscover2 (st : Motors) (n : Nat) : Bool × Motors :=
  match st.sys.read n "address".toList 63 with
  | (.error _, s) => (false, { st with sys := s.error })
  | (.ok a, s) =>
    match cutprefix a "ev3-ports:out".toList with
    | none => (false, { st with sys := s.error })
    | some u =>
      let c := u.getD 0 '\x00'
      if c < 'A' ∨ 'D' < c ∨ u.getD 1 '\x00' ≠ '\n' then (false, { st with sys := s.error })
      else (true, { st with sys := s, motors := fun q => if q = c.toNat - 65 then n else st.motors q })

/-- ports/ev3/motors.c:113-129 `discover_motor` -/
def mdiscover1 (st : Motors) (n : Nat) : Bool × Motors :=
  match st.sys.openDev n with
  | (.error .noent, s) => (true, { st with sys := s })
  | (.error _, s) => (false, { st with sys := s.error })
  | (.ok _, s) =>
    let (r, st) := mdiscover2 { st with sys := s } n
    (r, { st with sys := st.sys.close (.dev n) })

/-- ports/ev3/motors.c:131-156 `discover_motors2` -/
def mdiscoverAll (st : Motors) : List Entry → Bool × Motors
  | [] => (true, st)
  | .dot :: r => mdiscoverAll st r
  | .other :: _ => (false, { st with sys := st.sys.error })
  | .dev n :: r =>
    match mdiscover1 st n with
    | (false, st) => (false, st)
    | (true, st) => mdiscoverAll st r

/-- ports/ev3/motors.c:158-180 `discover_motors`: the table is cleared to 0, which is the number of a motor. -/
def mdiscover (st : Motors) : Bool × Motors :=
  let st := { st with motors := fun _ => 0 }
  let (sl, s) := st.sys.call
  if sl.fail.isSome then (false, { st with sys := s.error })
  else
    let s := { s with fds := .classDir :: s.fds }
    let (sl, s) := s.call
    if sl.fail.isSome then (false, { st with sys := (s.close .classDir).error })
    else
      let (r, st) := mdiscoverAll { st with sys := s } sl.names
      (r, { st with sys := st.sys.close .classDir })

/-- ports/ev3/motors.c:185-191 `open_motor` -/
def openMotor (st : Motors) (p : Nat) : Except Errno Nat × Motors :=
  match st.sys.openDev (st.motors p) with
  | (.error e, s) => (.error e, { st with sys := s })
  | (.ok _, s) => (.ok (st.motors p), { st with sys := s })

/-- ports/ev3/motors.c:193-210 `get_motori` -/
def getMotor (st : Motors) (p : Nat) : Option Nat × Motors :=
  match openMotor st p with
  | (.ok n, st) => (some n, st)
  | (.error _, st) =>
    match mdiscover st with
    | (false, st) => (none, st)
    | (true, st) =>
      match openMotor st p with
      | (.ok n, st) => (some n, st)
      | (.error _, st) => (none, { st with sys := st.sys.error })

/-- ports/ev3/motors.c:212-222 `get_motor_port` -/
def motorPort (t : Text) : Option Nat :=
  let c := t.getD 0 '\x00'
  if c < 'A' ∨ 'D' < c ∨ t.length ≠ 1 then none else some (c.toNat - 65)

/-- ports/ev3/motors.c:234-245 `motor_speed`, 460-471 `motor_position` -/
def motorRead (s : Sys) (n : Nat) (name : Text) : Val × Sys :=
  match s.readInt n name with
  | (.error _, s) => (.none, s.error)
  | (.ok v, s) => (.num (ratio v 360), s)

/-- ports/ev3/motors.c:260-269 `driver_speed` -/
def driverSpeed (f : BitVec 32) : Int :=
  let s := whole (fmul f (intToF 360))
  let s := if s < -1050 then -1050 else s
  if s > 1050 then 1050 else s

/-- A write to a file of the motor and the report of its failure, the body of most of the functions below. -/
def order (s : Sys) (n : Nat) (name text : Text) : Sys :=
  match s.write n name text with
  | (.error _, s) => s.error
  | (.ok _, s) => s

/-- Two writes, the second only after the first has succeeded. -/
def order2 (s : Sys) (n : Nat) (name text name' text' : Text) : Sys :=
  match s.write n name text with
  | (.error _, s) => s.error
  | (.ok _, s) => order s n name' text'

/-- What a call does with the open directory of the motor: ports/ev3/motors.c:320-335 `motor_setspeed`, 343-350 `motor_setleft`,
358-365 `motor_setright`, 374-381 `motor_on`, 389-396 `motor_off`, 404-424 `motor_onfor`, 432-452 `motor_setposition`, `motor_position`, 479-486 `motor_coast`,
494-501 `motor_brake`, 509-516 `motor_hold`, 524-557 `motor_ramp`, `motor_ramp_up`, `motor_ramp_down`. An argument that is not a number is an
error of type. -/
def motorFn (s : Sys) (n : Nat) : MCall → Val × Sys
  | .setpower (.num f) => (.none, order s n "speed_sp".toList (dec (driverSpeed f)))
  | .setleft => (.none, order s n "polarity".toList "inversed".toList)
  | .setright => (.none, order s n "polarity".toList "normal".toList)
  | .on => (.none, order s n "command".toList "run-forever".toList)
  | .off => (.none, order s n "command".toList "stop".toList)
  | .onfor (.num f) =>
    (.none, order2 s n "time_sp".toList (dec (whole (fmul f (intToF 1000)))) "command".toList "run-timed".toList)
  | .setposition (.num f) =>
    (.none, order2 s n "position_sp".toList (dec (whole (fmul f (intToF 360)))) "command".toList "run-to-abs-pos".toList)
  | .position => motorRead s n "position".toList
  | .coast => (.none, order s n "stop_action".toList "coast".toList)
  | .brake => (.none, order s n "stop_action".toList "brake".toList)
  | .hold => (.none, order s n "stop_action".toList "hold".toList)
  | .rampUp (.num f) => (.none, order s n "ramp_up_sp".toList (dec (whole (fmul (intToF 1000) f))))
  | .rampDown (.num f) => (.none, order s n "ramp_down_sp".toList (dec (whole (fmul (intToF 1000) f))))
  | .read _ => motorRead s n "speed".toList
  | _ => (.none, s.error)

/-- ports/ev3/motors.c:282-318 `call_with_current_motor0`, `call_with_current_motor1`, with the port found -/
def withMotor (st : Motors) (p : Nat) (c : MCall) : Val × Motors :=
  match getMotor st p with
  | (none, st) => (.none, st)
  | (some n, st) =>
    let (v, s) := motorFn st.sys n c
    (v, { st with sys := s.close (.dev n) })

/-- A call of a built-in of `motors.c`: ports/ev3/motors.c:271-280 `snek_builtin_talkto`, 247-258 `snek_ev3_motors_read`, which `read` calls for a string
(ports/ev3/snek-main.c:169-181), and the others, which find the selected motor (79-87 `get_selected_motor`). -/
def callMotor (st : Motors) (c : MCall) (sched : List Slot) : Val × Motors :=
  let st := { st with sys := { st.sys with sched := sched, err := false } }
  match c with
  | .talkto t =>
    match motorPort t with
    | none => (.none, { st with sys := st.sys.error })
    | some p => (.none, { st with sel := some p })
  | .read t =>
    match motorPort t with
    | none => (.none, { st with sys := st.sys.error })
    | some p => withMotor st p c
  | c =>
    match st.sel with
    | none => (.none, { st with sys := st.sys.error })
    | some p => withMotor st p c

/-- The process when it starts. -/
def motors0 (w : World) : Motors := { sys := { world := w, sched := [], fds := [], err := false, wrote := [] }, motors := fun _ => 0, sel := none }

/-- A history of calls. -/
def mhistory (w : World) (cs : List (MCall × List Slot)) : Motors := cs.foldl (fun st c => (callMotor st c.1 c.2).2) (motors0 w)

end Snek.Ev3
