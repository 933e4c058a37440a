import Verif.Model.AvrPins
import Verif.Model.Random
/-!
# tone

Models `tone` of the three families of boards that have it: `chips/atmega/snek-328p.c:30-51, 317-378, 470-484` (Duemilanove, Grove),
`ports/nano-every/snek-nano-every.c:364-432, 540-551`, and `chips/samd21/ao-dac-samd21.c:23-148`, `sine.h`, `snek-gpio.c:774-788` (Circuit Playground). The pin
functions are those of `Gpio` and `AvrPins`. `none` is undefined behaviour: a conversion of a number that is negative, too large or not a number, an access
outside the table.
-/
namespace Snek.Tone
open Snek.Random (fToU32)

/-- `freq == 0.0f`, snek-328p.c:324, snek-nano-every.c:382. -/
def isZero (f : BitVec 32) : Bool := f.toNat % 2 ^ 31 = 0

/-- The loop that looks for a prescaler, snek-328p.c:343-353, snek-nano-every.c:394-404: `cs` is the setting, `last` the greatest; `none` is `goto off`. The first
argument bounds the number of rounds; `cs` grows, so that it does not matter if it is at least `last + 1`. -/
def pick (limit last : Nat) (shift : Nat → Nat) : Nat → Nat → Nat → Option (Nat × Nat)
  | 0, _, _ => none
  | n + 1, cs, v => if limit < v then (if last < cs + 1 then none else pick limit last shift n (cs + 1) (v >>> shift cs)) else some (cs, v)

/-- snek-328p.c:341-353. -/
def pick8 (v : Nat) : Option (Nat × Nat) := pick 256 5 (fun cs => if cs < 3 then 3 else 2) 8 1 v

/-- snek-nano-every.c:391-404. -/
def pick16 (v : Nat) : Option (Nat × Nat) := pick 0xffff 7 (fun cs => if 3 < cs then 2 else 1) 8 0 v

/-! ## ATmega328P -/

/-- The pins, and `TCCR0B`. (`tccr0a` and `tccr0b` are written whole before they are used.) -/
structure St8 where
  g : Gpio.St
  cs : Nat

/-- `port_init`, snek-328p.c:62-98. -/
def init8 : St8 := ⟨Gpio.init, 1⟩

/-- `tcc0_reset` and `set_off(5)`, snek-328p.c:41-51, 325-328: mode WGM01, WGM00; clock not divided. -/
def off8 (s : St8) : St8 := ⟨Gpio.setOff 5 (s.g.set .tccr0a 3), 1⟩

/-- snek-328p.c:355-363: COM0B0 is bit 4, WGM01 bit 1. -/
def start8 (cs w : Nat) (s : St8) : St8 :=
  ⟨Gpio.setOn 5 (Gpio.setDirOut 5 ((s.g.set .tccr0a 0x12).set .ocr0a (BitVec.ofNat 8 (w + 255)))), cs⟩

/-- What is done with the value found, snek-328p.c:341-365. -/
def play8 (v : Nat) (s : St8) : St8 :=
  match pick8 v with
  | some (cs, w) => start8 cs w s
  | none => off8 s

/-- `tone`, snek-328p.c:319-366. `F_CPU` is 16000000. -/
def tone8 (f : BitVec 32) (s : St8) : Option St8 :=
  if isZero f then some (off8 s) else (fToU32 (fdiv (intToF 8000000) f)).map fun v => play8 v s

/-- Calls. `tonefor` is `tone`, `on`, sleep, `tone(0)`, snek-328p.c:368-377. -/
inductive Call8
  | pin (c : Gpio.Call)
  | tone (f : BitVec 32)

/-- `stopall` (:470-484) is as without `tone`: the `#ifdef` there is of `SNEK_builtin_tone`, which nothing defines (snek-builtin.py:105). -/
def call8 : Call8 → St8 → Option St8
  | .pin c, s => (Gpio.call c s.g).map fun g => { s with g := g }
  | .tone f, s => tone8 f s

/-- A sequence of calls. -/
def calls8 : List Call8 → St8 → Option St8
  | [], s => some s
  | c :: l, s => (call8 c s).bind (calls8 l)

/-! ## Nano Every -/

/-- The pins, the divider in `TCA0_SINGLE_CTRLA` and `TCA0_SINGLE_PER`. -/
structure St16 where
  p : AvrPins.St
  cs : Nat
  per : BitVec 16

/-- `port_init`, snek-nano-every.c:43-79: `PER` is 0xffff after a reset of the chip. -/
def init16 : St16 := ⟨AvrPins.init AvrPins.every, 0, 0xffff⟩

/-- `tone_reset`, snek-nano-every.c:368-374. -/
def off16 (s : St16) : St16 := ⟨AvrPins.toneReset AvrPins.every 5 s.p, 0, 0xffff⟩

/-- `*tcc_reg(5) |= tcc_val(5)` and `CMP2 = val`, snek-nano-every.c:409, 411. -/
def connect (val : BitVec 16) (p : AvrPins.St) : AvrPins.St :=
  { p with
    ocr := AvrPins.put p.ocr .tca0 (AvrPins.put (p.ocr .tca0) 2 val)
    tcc := AvrPins.put p.tcc .tca0 (p.tcc .tca0 ||| 0x40) }

/-- snek-nano-every.c:406-414: `val - 1` in 32 bits, cut to 16. -/
def start16 (cs w : Nat) (s : St16) : St16 :=
  let v := BitVec.ofNat 32 (w + (2 ^ 32 - 1))
  ⟨AvrPins.setOn AvrPins.every 5 (AvrPins.setDirOut AvrPins.every 5 (connect ((v >>> 1).setWidth 16) s.p)), cs, v.setWidth 16⟩

/-- snek-nano-every.c:391-416. -/
def play16 (v : Nat) (s : St16) : St16 :=
  match pick16 v with
  | some (cs, w) => start16 cs w s
  | none => off16 s

/-- `tone`, snek-nano-every.c:377-417. `F_CPU` is 20000000 (ports/nano-every/Makefile:68). -/
def tone16 (f : BitVec 32) (s : St16) : Option St16 :=
  if isZero f then some (off16 s) else (fToU32 (fdiv (intToF 20000000) f)).map fun v => play16 v s

/-- Calls. `tonefor` is `tone`, `on`, sleep, `tone(0)`, snek-nano-every.c:419-428. -/
inductive Call16
  | pin (c : AvrPins.Call)
  | tone (f : BitVec 32)

/-- `stopall` begins with `tone_reset`, snek-nano-every.c:544. -/
def call16 : Call16 → St16 → Option St16
  | .pin .stopall, s => some { off16 s with p := AvrPins.stopall AvrPins.every s.p }
  | .pin c, s => (AvrPins.call AvrPins.every c s.p).map fun p => { s with p := p }
  | .tone f, s => tone16 f s

/-- A sequence of calls. -/
def calls16 : List Call16 → St16 → Option St16
  | [], s => some s
  | c :: l, s => (call16 c s).bind (calls16 l)

/-! ## SAMD21 -/

/-- sine.h:24-281. -/
def sine : List Nat := [
   0, 9, 39, 88, 157, 246, 354, 482, 629, 796, 981, 1186, 1410, 1653, 1915, 2195, 2494, 2811, 3145, 3498, 3869, 4256, 4661, 5083, 5522, 5977, 6448,
   6935, 7437, 7955, 8488, 9035, 9597, 10172, 10762, 11364, 11979, 12607, 13247, 13899, 14562, 15236, 15921, 16616, 17320, 18034, 18757, 19488, 20227,
   20974, 21728, 22488, 23255, 24027, 24805, 25587, 26374, 27165, 27959, 28755, 29555, 30356, 31159, 31962, 32766, 33571, 34374, 35177, 35978, 36778,
   37574, 38368, 39159, 39946, 40728, 41506, 42278, 43045, 43805, 44559, 45306, 46045, 46776, 47499, 48213, 48917, 49612, 50297, 50971, 51634, 52286,
   52926, 53554, 54169, 54771, 55361, 55936, 56498, 57045, 57578, 58096, 58598, 59085, 59556, 60011, 60450, 60872, 61277, 61664, 62035, 62388, 62722,
   63039, 63338, 63618, 63880, 64123, 64347, 64552, 64737, 64904, 65051, 65179, 65287, 65376, 65445, 65494, 65524, 65534, 65524, 65494, 65445, 65376,
   65287, 65179, 65051, 64904, 64737, 64552, 64347, 64123, 63880, 63618, 63338, 63039, 62722, 62388, 62035, 61664, 61277, 60872, 60450, 60011, 59556,
   59085, 58598, 58096, 57578, 57045, 56498, 55936, 55361, 54771, 54169, 53554, 52926, 52286, 51634, 50971, 50297, 49612, 48917, 48213, 47499, 46776,
   46045, 45306, 44559, 43805, 43045, 42278, 41506, 40728, 39946, 39159, 38368, 37574, 36778, 35978, 35177, 34374, 33571, 32767, 31962, 31159, 30356,
   29555, 28755, 27959, 27165, 26374, 25587, 24805, 24027, 23255, 22488, 21728, 20974, 20227, 19488, 18757, 18034, 17320, 16616, 15921, 15236, 14562,
   13899, 13247, 12607, 11979, 11364, 10762, 10172, 9597, 9035, 8488, 7955, 7437, 6935, 6448, 5977, 5522, 5083, 4661, 4256, 3869, 3498, 3145, 2811,
   2494, 2195, 1915, 1653, 1410, 1186, 981, 796, 629, 482, 354, 246, 157, 88, 39, 9]

/-- `NSINE << 16`, ao-dac-samd21.c:36, 52, 63. -/
def turn : Nat := 2 ^ 24

/-- ao-dac-samd21.c:38-42, the interrupt's enable bit and the converter's data register. -/
structure Dac where
  cur : Nat
  power : Nat
  phase : BitVec 32
  step : BitVec 32
  running : Bool
  irq : Bool
  data : Nat

/-- Zero at the start. -/
def dac0 : Dac := ⟨0, 0, 0, 0, false, false, 0⟩

/-- The sample, ao-dac-samd21.c:62. -/
def sample (s : Dac) : Option Nat := (sine[(s.phase >>> 16).toNat]?).map fun v => v * s.cur / 2 ^ 16

/-- A whole turn done, ao-dac-samd21.c:63-74. -/
def wrap (s : Dac) : Dac :=
  let s := { s with phase := s.phase - BitVec.ofNat 32 turn, cur := s.power }
  if s.running then s else { s with step := 0, phase := 0, irq := false }

/-- ao-dac-samd21.c:62-74. -/
def advance (s : Dac) (d : Nat) : Dac :=
  let s := { s with data := d, phase := s.phase + s.step }
  if turn ≤ s.phase.toNat then wrap s else s

/-- The interrupt, ao-dac-samd21.c:55-77, at an overflow of the timer, if enabled. -/
def tick (s : Dac) : Option Dac :=
  if s.irq && s.step != 0 then (sample s).map (advance s) else some s

/-- The conversion of `ao_dac_set_hz`, ao-dac-samd21.c:93. -/
def toStep (hz : BitVec 32) : Option Nat := fToU32 (fdiv (fmul (intToF 16777216) hz) (intToF 24000))

/-- `ao_dac_set_hz`, ao-dac-samd21.c:79-102; `tone`, snek-gpio.c:774-781. -/
def setHz (hz : BitVec 32) (s : Dac) : Option Dac :=
  (toStep hz).map fun n => if n ≠ 0 then { s with running := true, step := BitVec.ofNat 32 n, irq := true } else { s with running := false }

/-- `ao_dac_set`, ao-dac-samd21.c:125-148. -/
def setLevel (v : Nat) (s : Dac) : Dac :=
  let s := { s with power := v }
  if s.step = 0 then { s with cur := v, data := v } else s

/-- What happens to the converter: a sample is due, `tone`, the level of the pin is set (`on`, `off`, `setpower`, `stopall`). -/
inductive Ev
  | tick
  | tone (hz : BitVec 32)
  | level (v : BitVec 16)

/-- One event. -/
def event : Ev → Dac → Option Dac
  | .tick, s => tick s
  | .tone hz, s => setHz hz s
  | .level v, s => some (setLevel v.toNat s)

/-- Events in turn. -/
def events : List Ev → Dac → Option Dac
  | [], s => some s
  | e :: l, s => (event e s).bind (events l)

end Snek.Tone
