import Verif.Model.Narrow
/-!
# The pins of the narrow 1284 and what calls ask of them

Only the types of calls and ports are those of the model. Pins 0 to 7 are port B, 8 to 15 port D, 16 to 23 port C, 24 to 31 (A0 to A7) port A.
-/
namespace Spec.Narrow
open Snek.Narrow (Call Port)

/-- The place of a pin on the chip. -/
def place (p : Nat) : Port × Nat := (([Port.b, .d, .c, .a] : List Port).getD (p / 8) .a, p % 8)

/-- Pins that can be dimmed. -/
def dims (p : Nat) : Bool := [3, 4, 6, 7, 12, 13, 14, 15].contains p

/-- The timer that can drive a pin (data sheet of the ATmega1284: OC0A and OC0B are PB3 and PB4, OC3A and OC3B PB6 and PB7, OC1B and OC1A PD4 and PD5,
OC2B and OC2A PD6 and PD7). The bits that connect either are in the timer's register A. -/
def timer (p : Nat) : Option Nat :=
  if p = 3 ∨ p = 4 then some 0 else if p = 6 ∨ p = 7 then some 3 else if p = 12 ∨ p = 13 then some 1 else if p = 14 ∨ p = 15 then some 2 else none

/-- What was asked last: the two pins talked to, and for every pin whether it is on, its power and whether it is an output. -/
structure Asked where
  cur : Nat
  dir : Nat
  on : Nat → Bool
  power : Nat → BitVec 8
  out : Nat → Bool

def set {β : Type} (f : Nat → β) (q : Nat) (v : β) : Nat → β := fun p => if p = q then v else f p

def Asked.init : Asked := ⟨0, 0, fun _ => false, fun _ => 255, fun _ => false⟩

def ask (a : Asked) : Call → Asked
  | .talkto p d => { a with cur := p, dir := d, out := set (set a.out p true) d true }
  | .setpower v => { a with power := set a.power a.cur v }
  | .on => { a with on := set a.on a.cur true }
  | .off => { a with on := set a.on a.cur false }
  | .setleft => { a with on := set a.on a.dir true }
  | .setright => { a with on := set a.on a.dir false }
  | .read p => { a with out := set a.out p false }
  | .stopall => { a with on := fun _ => false }
  | .pullnone _ | .pullup _ => a

/-- High if on with some power. -/
def Asked.level (a : Asked) (p : Nat) : Bool := a.on p && decide (a.power p ≠ 0)

/-- The pins a call names exist. -/
def ok : Call → Prop
  | .talkto p d => p < 32 ∧ d < 32
  | .read p | .pullnone p | .pullup p => p < 32
  | _ => True

end Spec.Narrow
