import Verif.Model.Neopixel
/-!
# Lamps

The signals after the data sheets. WS2812: each bit is a pulse, a long one for 1; green, red, blue, most significant bit first, one lamp
after the other. APA102: a bit is read at each rising edge of the clock; a start frame of 32 zeros, for each lamp eight ones, blue, green and
red, and an end frame.
-/
namespace Spec.Lamps
open Snek.Neopixel

/-- The bits seen on one wire. `level`: the wire is high, for `h` so far; pulses longer than `T` are ones. -/
def pulses (T : Nat) : (level : Bool) → (h : Nat) → List Ev → List Bool
  | _, _, [] => []
  | true, h, .wait n :: l => pulses T true (h + n) l
  | false, h, .wait _ :: l => pulses T false h l
  | false, _, .toggle :: l => pulses T true 0 l
  | true, h, .toggle :: l => decide (T < h) :: pulses T false 0 l

/-- The bits seen on two wires, which have the levels `c` and `d`. -/
def clocked : (c d : Bool) → List Ev2 → List Bool
  | _, _, [] => []
  | c, _, .data v :: l => clocked c v l
  | false, d, .clockHigh :: l => d :: clocked true d l
  | true, d, .clockHigh :: l => clocked true d l
  | false, d, .clockToggle :: l => d :: clocked true d l
  | true, d, .clockToggle :: l => clocked false d l

/-- A byte, most significant bit first. -/
def byte (v : BitVec 8) : List Bool := [v.getLsbD 7, v.getLsbD 6, v.getLsbD 5, v.getLsbD 4, v.getLsbD 3, v.getLsbD 2, v.getLsbD 1, v.getLsbD 0]

/-- A colour: red, green, blue. -/
abbrev RGB := BitVec 8 × BitVec 8 × BitVec 8

/-- What lamps of the first kind are to be sent. -/
def ws (l : List RGB) : List Bool := l.flatMap fun (r, g, b) => byte g ++ byte r ++ byte b

/-- What lamps of the second kind are to be sent. -/
def apa (l : List RGB) : List Bool :=
  List.replicate 32 false ++ (l.flatMap fun (r, g, b) => List.replicate 8 true ++ byte b ++ byte g ++ byte r) ++ List.replicate 32 true

end Spec.Lamps
