import Verif.Model.Cmp
import Verif.Model.F32
/-!
# Pins of the ATmega328P

Models `chips/atmega/snek-328p.c:17-28, 62-98, 125-315, 380-484` (Duemilanove and Grove) without `tone`: the pin functions on the registers of the chip. Registers
that are only written (`ADMUX`, `ADCSRA`) are left out; what the pins and the converter read is an input. `int` has 16 bits.
`none` is undefined behaviour.
-/
namespace Snek.Gpio

/-- The registers the functions read and write. Of a timer only its `TCCRnA`. -/
inductive Reg
  | ddrd | ddrb | ddrc | portd | portb | portc | tccr0a | tccr1a | tccr2a | ocr2b | ocr0b | ocr0a | ocr1al | ocr1bl | ocr2a
  deriving DecidableEq

/-- The registers, and the static variables of snek-328p.c:19-28; `lines` counts the lines written to the console by `setpower`. -/
structure St where
  r : Reg → BitVec 8
  powerPin : Nat
  dirPin : Nat
  power : Nat → BitVec 8
  onPins : BitVec 32
  pullPins : BitVec 32
  lines : Nat

/-- NUM_PIN, snek-328p.c:17. -/
def numPin : Nat := 21

/-- After reset (registers zero) and `port_init`, snek-328p.c:62-98; `pull_pins` is 0x3fff. -/
def init : St where
  r := fun g => match g with | .tccr0a => 3 | .tccr1a => 1 | .tccr2a => 3 | _ => 0
  powerPin := 0
  dirPin := 0
  power := fun _ => 255
  onPins := 0
  pullPins := 0x3fff
  lines := 0

/-- `ddr_reg`, snek-328p.c:125-133. -/
def ddrReg (pin : Nat) : Reg := if pin < 8 then .ddrd else if pin < 14 then .ddrb else .ddrc

/-- `port_reg`, snek-328p.c:145-153. -/
def portReg (pin : Nat) : Reg := if pin < 8 then .portd else if pin < 14 then .portb else .portc

/-- `bit`, snek-328p.c:155-165. -/
def bit (pin : Nat) : BitVec 8 := 1#8 <<< (if pin < 8 then pin else if pin < 14 then pin - 8 else pin - 14)

/-- `has_pwm`, snek-328p.c:173-182: of the pin's number only the low four bits are looked at. -/
def hasPwm (pin : Nat) : Bool := [3, 5, 6, 9, 10, 11].contains (pin % 16)

/-- `ocr_reg`, snek-328p.c:184-196: the table has 12 entries. -/
def ocrReg : Nat → Option Reg
  | 3 => some .ocr2b | 5 => some .ocr0b | 6 => some .ocr0a | 9 => some .ocr1al | 10 => some .ocr1bl | 11 => some .ocr2a | _ => none

/-- `tcc_reg`, snek-328p.c:198-210. -/
def tccReg : Nat → Option Reg
  | 3 => some .tccr2a | 5 => some .tccr0a | 6 => some .tccr0a | 9 => some .tccr1a | 10 => some .tccr1a | 11 => some .tccr2a | _ => none

/-- `tcc_val`, snek-328p.c:212-225: COM2B1, COM0B1 and COM1B1 are bit 5, COM0A1, COM1A1 and COM2A1 bit 7. -/
def tccVal : Nat → BitVec 8
  | 3 => 0x20 | 5 => 0x20 | 6 => 0x80 | 9 => 0x80 | 10 => 0x20 | 11 => 0x80 | _ => 0

/-- Assignment to a register. -/
def St.set (s : St) (g : Reg) (v : BitVec 8) : St := { s with r := fun g' => if g' = g then v else s.r g' }

/-- `is_pull`, snek-328p.c:167-171. -/
def isPull (s : St) (pin : Nat) : Bool := s.pullPins.getLsbD pin

/-- `set_dir(pin, 1)`, snek-328p.c:227-235. -/
def setDirOut (pin : Nat) (s : St) : St := s.set (ddrReg pin) (s.r (ddrReg pin) ||| bit pin)

/-- `set_dir(pin, 0)`, snek-328p.c:227-242. -/
def setDirIn (pin : Nat) (s : St) : St :=
  let s := s.set (ddrReg pin) (s.r (ddrReg pin) &&& ~~~ bit pin)
  if isPull s pin then s.set (portReg pin) (s.r (portReg pin) ||| bit pin)
  else s.set (portReg pin) (s.r (portReg pin) &&& ~~~ bit pin)

/-- `is_on`, snek-328p.c:276-280. -/
def isOn (s : St) (pin : Nat) : Bool := s.onPins.getLsbD pin

/-- `set_on`, snek-328p.c:282-286. -/
def setOn (pin : Nat) (s : St) : St := { s with onPins := s.onPins ||| (1#32 <<< pin) }

/-- `set_off`, snek-328p.c:288-292. -/
def setOff (pin : Nat) (s : St) : St := { s with onPins := s.onPins &&& ~~~ (1#32 <<< pin) }

/-- `set_out`, snek-328p.c:294-315. -/
def setOut (pin : Nat) (s : St) : Option St :=
  let p := if isOn s pin then s.power pin else 0
  let port (s : St) : St :=
    if p ≠ 0 then s.set (portReg pin) (s.r (portReg pin) ||| bit pin) else s.set (portReg pin) (s.r (portReg pin) &&& ~~~ bit pin)
  if hasPwm pin then do
    let t ← tccReg pin
    if 0 < p ∧ p < 255 then
      let o ← ocrReg pin
      let s := s.set o p
      pure (s.set t (s.r t ||| tccVal pin))
    else pure (port (s.set t (s.r t &&& ~~~ tccVal pin)))
  else pure (port s)

/-- The conversion of `setpower`, snek-328p.c:383-387. -/
def powerByte (p : BitVec 32) : Option (BitVec 8) :=
  let p := if fltF p 0 then 0 else p
  let p := if fltF 0x3f800000 p then 0x3f800000 else p
  let f := fadd (fmul p 0x437f0000) 0x3f000000
  if isFin f ∧ 0 ≤ ftrunc f ∧ ftrunc f < 256 then some (BitVec.ofInt 8 (ftrunc f)) else none

/-- The mask of `pullnone` and `pullup`, snek-328p.c:432, 441: `1 << p` is an `int`, which is then extended to 32 bits. (For `p` of 16 and
more the shift is undefined; the loop the compiler makes of it on this chip gives 0.) -/
def pullMask (pin : Nat) : BitVec 32 := BitVec.signExtend 32 (1#16 <<< pin)

/-- Calls of the pin functions with valid arguments (others are errors that change nothing, snek-328p.c:245-273). `onfor` is `on`, sleep, `off`. -/
inductive Call
  | talkto (p d : Nat)
  | setpower (v : BitVec 32)
  | setleft | setright | on | off
  | pullnone (p : Nat) | pullup (p : Nat)
  | read (p : Nat)
  | stopall

/-- The loop of `stopall`, snek-328p.c:478-482, from pin `p` on, `n` pins. -/
def stopFrom : Nat → Nat → St → Option St
  | 0, _, s => some s
  | n + 1, p, s => do
    let s ← if isOn s p then setOut p (setOff p s) else some s
    stopFrom n (p + 1) s

/-- The functions, snek-328p.c:254-274, 380-484. -/
def call : Call → St → Option St
  | .talkto p d, s => some { setDirOut d (setDirOut p s) with powerPin := p, dirPin := d }
  | .setpower v, s => do
    let b ← powerByte v
    setOut s.powerPin { s with power := fun q => if q = s.powerPin then b else s.power q, lines := s.lines + 1 }
  | .setleft, s => setOut s.dirPin (setOn s.dirPin s)
  | .setright, s => setOut s.dirPin (setOff s.dirPin s)
  | .on, s => setOut s.powerPin (setOn s.powerPin s)
  | .off, s => setOut s.powerPin (setOff s.powerPin s)
  | .pullnone p, s => some { s with pullPins := s.pullPins &&& ~~~ pullMask p }
  | .pullup p, s => some { s with pullPins := s.pullPins ||| pullMask p }
  | .read p, s => some (setDirIn p s)
  | .stopall, s => stopFrom numPin 0 s

/-- The value `read` returns: the bit of the pin, or of the converter's 10 bits `adc / 1023.0` (a `double` is a `float` here),
snek-328p.c:447-469. -/
def readValue (s : St) (p : Nat) (pin : Bool) (adc : Nat) : BitVec 32 :=
  if 14 ≤ p ∧ !isPull s p then fdiv (intToF adc) (intToF 1023) else intToF (if pin then 1 else 0)

/-- A sequence of calls. -/
def calls : List Call → St → Option St
  | [], s => some s
  | c :: l, s => (call c s).bind (calls l)

end Snek.Gpio
