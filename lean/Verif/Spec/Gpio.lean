import Verif.Model.Gpio
/-!
# Pins

The data sheet: which bits of which registers a pin is connected to, and what it drives. The manual: what the functions promise about
the pins, each of which is on or off and has a power.
-/
namespace Spec.Gpio
open Snek.Gpio

/-- Direction register, output register and bit of a pin (data sheet, pin configurations; pins 0 to 7 are PD0 to PD7, 8 to 13 PB0 to PB5, then PC0...). -/
def port (q : Nat) : Reg × Reg × Nat :=
  if q < 8 then (.ddrd, .portd, q) else if q < 14 then (.ddrb, .portb, q - 8) else (.ddrc, .portc, q - 14)

/-- Control register and bit that connect the pin to a timer, and the compare register that sets the pulse width: OC2B is PD3, OC0B PD5, OC0A PD6, OC1A
PB1, OC1B PB2, OC2A PB3. -/
def timer : Nat → Option (Reg × Nat × Reg)
  | 3 => some (.tccr2a, 5, .ocr2b)
  | 5 => some (.tccr0a, 5, .ocr0b)
  | 6 => some (.tccr0a, 7, .ocr0a)
  | 9 => some (.tccr1a, 7, .ocr1al)
  | 10 => some (.tccr1a, 5, .ocr1bl)
  | 11 => some (.tccr2a, 7, .ocr2a)
  | _ => none

/-- What a pin drives: `none` if it is an input, else a level from 0 to 255. -/
def drives (r : Reg → BitVec 8) (q : Nat) : Option Nat :=
  let high := if (r (port q).2.1).getLsbD (port q).2.2 then 255 else 0
  if (r (port q).1).getLsbD (port q).2.2 then
    some (match timer q with
      | some (t, k, o) => if (r t).getLsbD k then (r o).toNat else high
      | none => high)
  else none

/-- What the program has asked for: current pins, which pins are on, their powers. -/
structure Pins where
  cur : Nat
  dir : Nat
  on : Nat → Bool
  power : Nat → Nat

/-- At the start all pins are off, with full power. -/
def start : Pins := ⟨0, 0, fun _ => false, fun _ => 255⟩

/-- Change one entry. -/
def upd {α : Type} (f : Nat → α) (q : Nat) (v : α) : Nat → α := fun p => if p = q then v else f p

/-- The manual, section "General purpose I/O". -/
def told (a : Pins) : Call → Pins
  | .talkto p d => { a with cur := p, dir := d }
  | .setpower v => { a with power := upd a.power a.cur (match powerByte v with | some b => b.toNat | none => 0) }
  | .setleft => { a with on := upd a.on a.dir true }
  | .setright => { a with on := upd a.on a.dir false }
  | .on => { a with on := upd a.on a.cur true }
  | .off => { a with on := upd a.on a.cur false }
  | .stopall => { a with on := fun _ => false }
  | .pullnone _ => a
  | .pullup _ => a
  | .read _ => a

/-- The level a pin should have: its power if it is on, else 0. Pins without a timer are fully on or off. -/
def level (a : Pins) (q : Nat) : Nat :=
  if a.on q then (if (timer q).isSome then a.power q else if a.power q = 0 then 0 else 255) else 0

end Spec.Gpio
