/-!
# Pins of the HiFive1 Rev B

Models `ports/hifive1revb/snek-metal-gpio.c`. Simplifications: the argument of `setpower` is the byte it is converted to (:160-162), `none` if it is not a number; the
registers of the chip are functions of the number of the line (`metal_gpio_set_pin`, `metal_gpio_enable_output` and so on change one
line); `talkto` and `read` of a pin that is not accepted raise an error (`snek_error_value` sets `snek_abort`) and do nothing else; a value that is
not a number is a number that is not a pin there.
-/
namespace Snek.MetalGpio

/-- `pin_map`, snek-metal-gpio.c:27-56; `none` is 0xff. -/
def pinMap : List (Option Nat) :=
  [some 16, some 17, some 18, some 19, some 20, some 21, some 22, some 23,
   some 0, some 1, some 2, some 3, some 4, some 5,
   none, some 9, some 10, some 11, some 12, some 13,
   some 12, some 13]

/-- The chip's line for a pin, `pin_map[p]`, snek-metal-gpio.c:96, 116, 222. -/
def line (p : Nat) : Nat := (pinMap.getD p none).getD 255

/-- Static variables, snek-metal-gpio.c:70-72, and the chip: output values, output enables, input enables. -/
structure St where
  powerPin : Nat
  dirPin : Nat
  power : Nat → Nat
  on : Nat → Bool
  out : Nat → Bool
  oe : Nat → Bool
  ie : Nat → Bool

/-- Change one entry: an assignment to `power[p]` or `on_pins[p]`, snek-metal-gpio.c:83, 89, 162, or to one line of the chip, :99-103, 118. -/
def put {β : Type} (f : Nat → β) (q : Nat) (v : β) : Nat → β := fun p => if p = q then v else f p

/-- `snek_poly_get_pin`, snek-metal-gpio.c:123-130; `none` is an error. -/
def getPin (p : Int) : Option Nat :=
  if p < 0 ∨ (pinMap.length : Int) ≤ p ∨ pinMap.getD p.toNat none = none then none else some p.toNat

/-- `set_dir`, snek-metal-gpio.c:92-105. -/
def setDir (p : Nat) (d : Bool) (s : St) : St :=
  if d then { s with ie := put s.ie (line p) false, oe := put s.oe (line p) true }
  else { s with oe := put s.oe (line p) false, ie := put s.ie (line p) true }

/-- `set_out`, snek-metal-gpio.c:107-121; `is_on`, :74-78. -/
def setOut (p : Nat) (s : St) : St :=
  let pow := if s.on p then s.power p else 0
  { s with out := put s.out (line p) (pow != 0) }

/-- `talkto`, snek-metal-gpio.c:132-154; the two numbers are equal if one is given. -/
def talkto (p d : Int) (s : St) : St :=
  match getPin p, getPin d with
  | some p, some d =>
    let s := setDir d true (setOut d (setDir p true (setOut p s)))
    { s with powerPin := p, dirPin := d }
  | _, _ => s

/-- `setpower`, snek-metal-gpio.c:156-164. What is not a number raises an error and counts as 0, snek-poly.c:148-155. -/
def setpower (v : Option Nat) (s : St) : St := setOut s.powerPin { s with power := put s.power s.powerPin (v.getD 0) }

/-- `on`, snek-metal-gpio.c:178-183; `set_on`, :80-84. -/
def turnOn (s : St) : St := setOut s.powerPin { s with on := put s.on s.powerPin true }

/-- `off`, snek-metal-gpio.c:185-190; `set_off`, :86-90. -/
def turnOff (s : St) : St := setOut s.powerPin { s with on := put s.on s.powerPin false }

/-- `read` up to the reading, snek-metal-gpio.c:210-223. -/
def read (p : Int) (s : St) : St :=
  match getPin p with
  | some p => setDir p false s
  | none => s

/-- Calls a program can make, the builtins of snek-metal-gpio.c:132-237. -/
inductive Call
  | talkto (p d : Int)
  | setpower (v : Option Nat)
  | on | off
  | setleft | setright
  | pull (p : Int)
  | read (p : Int)
  | stopall
  deriving DecidableEq, Repr

/-- One call. `setleft`, `setright`, `pullnone`, `pullup`, `pulldown` and `stopall` do nothing, snek-metal-gpio.c:166-176, 192-208, 233-237.
(`onfor` is `on`, `time.sleep`, `off`, :225-231.) -/
def step (s : St) : Call → St
  | .talkto p d => talkto p d s
  | .setpower v => setpower v s
  | .on => turnOn s
  | .off => turnOff s
  | .read p => read p s
  | .setleft | .setright | .pull _ | .stopall => s

/-- After a reset, `snek_gpio_init`, snek-metal-gpio.c:239-241; the output and input enables of the chip are clear. -/
def St.init : St := ⟨0, 0, fun _ => 255, fun _ => false, fun _ => false, fun _ => false, fun _ => false⟩

end Snek.MetalGpio
