import Verif.Spec.Ev3
/-!
# What the calls for motors of the LEGO EV3 mean

Nothing here mentions the code of the port.
-/
namespace Snek.Ev3

/-- An argument: a number, or a value of another type. -/
inductive Arg
  | num (f : BitVec 32)
  | other

/-- A call of a built-in for motors. The names of ports are strings. -/
inductive MCall
  | talkto (port : Text)
  | setpower (a : Arg)
  | setleft
  | setright
  | on
  | off
  | onfor (a : Arg)
  | setposition (a : Arg)
  | position
  | coast
  | brake
  | hold
  | rampUp (a : Arg)
  | rampDown (a : Arg)
  | read (port : Text)

/-- The letter of output port `p`. -/
def outLetter (p : Nat) : Char := Char.ofNat (65 + p)

/-- The address of output port `p`: A is 0. -/
def outPort (p : Nat) : Text := "ev3-ports:out".toList ++ [outLetter p, '\n']

/-- The port a string names. -/
def portOf (t : Text) : Option Nat := (List.range 4).find? fun p => t = [outLetter p]

/-- The motor chosen by the latest `talkto` of a port there is. -/
def chosen (cs : List MCall) : Option Nat :=
  cs.foldl (fun c call => match call with
    | .talkto t => (portOf t).orElse fun _ => c
    | _ => c) none

/-- The integer part of a `float`; one out of the range of `int` gives the nearest `int`, and a NaN gives 0 (as the ARM does; C leaves it undefined). -/
def whole (f : BitVec 32) : Int :=
  match fToInt 32 f with
  | some i => i
  | none => if isNanF f then 0 else if fneg f then -(2 ^ 31) else 2 ^ 31 - 1

/-- A number of units of the driver: `k` to one unit of the language. -/
def units (k : Int) (f : BitVec 32) : Int := whole (fmul f (intToF k))

/-- A speed in degrees per second, no faster than the motor turns: 1050. -/
def speed (f : BitVec 32) : Int := max (-1050) (min 1050 (units 360 f))

/-- What is written to the files of the motor, in order; `none` if the argument is not a number. -/
def orders : MCall → Option (List (Text × Text))
  | .talkto _ => some []
  | .setpower (.num f) => some [("speed_sp".toList, dec (speed f))]
  | .setleft => some [("polarity".toList, "inversed".toList)]
  | .setright => some [("polarity".toList, "normal".toList)]
  | .on => some [("command".toList, "run-forever".toList)]
  | .off => some [("command".toList, "stop".toList)]
  | .onfor (.num f) => some [("time_sp".toList, dec (units 1000 f)), ("command".toList, "run-timed".toList)]
  | .setposition (.num f) => some [("position_sp".toList, dec (units 360 f)), ("command".toList, "run-to-abs-pos".toList)]
  | .position => some []
  | .coast => some [("stop_action".toList, "coast".toList)]
  | .brake => some [("stop_action".toList, "brake".toList)]
  | .hold => some [("stop_action".toList, "hold".toList)]
  | .rampUp (.num f) => some [("ramp_up_sp".toList, dec (units 1000 f))]
  | .rampDown (.num f) => some [("ramp_down_sp".toList, dec (units 1000 f))]
  | .read _ => some []
  | _ => none

/-- The file a call reads, in degrees or degrees per second. -/
def asks : MCall → Option Text
  | .position => some "position".toList
  | .read _ => some "speed".toList
  | _ => none

/-- The port a call is about. -/
def about (sel : Option Nat) : MCall → Option Nat
  | .read t => portOf t
  | _ => sel

end Snek.Ev3
