import Verif.Model.Gpio
import Verif.Model.Pins
/-!
# Pins of the other AVR boards

Models the pin functions of the Mega (`ports/mega/snek-mega.c:18-31, 39-118, 148-385, 387-661`), of the boards with an ATmega32U4 (ItsyBitsy 3v and 5v,
µduino: `chips/avr/ao-snek-avr.c:19-27, 57-168, 189-444, 495-511`, `ports/itsybitsy5v/ao-pins.h:30-94`, `ports/uduino/ao-pins.h:30-91`) and of the Nano Every
(`ports/nano-every/snek-nano-every.c:18-79, 105-365, 435-551`). The three files have the same functions; what differs is in `Board`. `tone` itself is left
out, as are registers that are only written (except the converter's input) and the serial port, which takes pins 0 and 1 of the Mega.
-/
namespace Snek.AvrPins

inductive Port
  | pa | pb | pc | pd | pe | pf | pg | ph | pj | pk | pl
  deriving DecidableEq

/-- Timers and their control registers: `TCCRnA` for `t0` to `t5`, `TCCR4C`, `TCA0_SINGLE_CTRLB`, `TCB0_CTRLB`, `TCB1_CTRLB`. -/
inductive Tm
  | t0 | t1 | t2 | t3 | t4 | t5 | t4c | tca0 | tcb0 | tcb1
  deriving DecidableEq

/-- A pin of the tables: its port and bit, and, if it has one, its compare register (timer and channel), control register and bit there; the value for the
converter. -/
structure Pin where
  port : Port
  bit : Nat
  pwm : Option (Tm × Nat × Tm × Nat) := none
  adc : Option Nat := none
  deriving DecidableEq

/-- A pin without timer and converter. -/
def io (p : Port) (k : Nat) : Pin := { port := p, bit := k }

/-- Entries of `ocr_reg_addrs` (or `ccmp_reg_addrs`), `tcc_reg_addrs` and `tcc_vals`. -/
def Pin.tim (e : Pin) (t : Tm) (ch : Nat) (c : Tm) (k : Nat) : Pin := { e with pwm := some (t, ch, c, k) }

/-- The converter's input. -/
def Pin.ain (e : Pin) (n : Nat) : Pin := { e with adc := some n }

/-- What differs. `wide`: powers have 16 bits. `digital`: the pins below it are pulled up at the start. `packed`: flags are bits, else bytes. `modes`: the control
registers `port_init` sets. `clears`: it also clears the ports; `reset` is then a jump to it, else a reset of the chip. `adcPull`: `read` looks at the pull-up
before it takes the converter. `tone`: the pin of `tone_reset` in `stopall`. -/
structure Board where
  pins : List Pin
  wide : Bool
  digital : Nat
  packed : Bool
  modes : List (Tm × BitVec 8)
  clears : Bool
  adcPull : Bool
  tone : Option Nat

/-- Registers, snek-mega.c:21-26 and the same in the other files. -/
structure St where
  ddr : Port → BitVec 8
  out : Port → BitVec 8
  ocr : Tm → Nat → BitVec 16
  tcc : Tm → BitVec 8
  powerPin : Nat
  dirPin : Nat
  power : Nat → BitVec 16
  onPins : Nat → BitVec 8
  pullPins : Nat → BitVec 8

/-- Tables of the Mega, snek-mega.c:213-364 (ports and bits), 387-461 (timers), 633-634 (`pin & 15` into `ADMUX`). -/
def megaPins : List Pin :=
  [io .pe 0, io .pe 1, (io .pe 4).tim .t3 1 .t3 5, (io .pe 5).tim .t3 2 .t3 3, (io .pg 5).tim .t0 1 .t0 5, (io .pe 3).tim .t3 0 .t3 7,
   (io .ph 3).tim .t4 0 .t4 7, (io .ph 4).tim .t4 1 .t4 5, (io .ph 5).tim .t4 2 .t4 3, (io .ph 6).tim .t2 1 .t2 5, (io .pb 4).tim .t2 0 .t2 7,
   (io .pb 5).tim .t1 0 .t1 7, (io .pb 6).tim .t1 1 .t1 5, (io .pb 7).tim .t0 0 .t0 7, io .pj 1, io .pj 0, io .ph 1, io .ph 0, io .pd 3, io .pd 2, io .pd 1,
   io .pd 0, io .pa 0, io .pa 1, io .pa 2, io .pa 3, io .pa 4, io .pa 5, io .pa 6, io .pa 7, io .pc 7, io .pc 6, io .pc 5, io .pc 4, io .pc 3, io .pc 2,
   io .pc 1, io .pc 0, io .pd 7, io .pg 2, io .pg 1, io .pg 0, io .pl 7, io .pl 6, (io .pl 5).tim .t5 2 .t5 3, (io .pl 4).tim .t5 1 .t5 5,
   (io .pl 3).tim .t5 0 .t5 7, io .pl 2, io .pl 1, io .pl 0, io .pb 3, io .pb 2, io .pb 1, io .pb 0, (io .pf 0).ain 0, (io .pf 1).ain 1, (io .pf 2).ain 2,
   (io .pf 3).ain 3, (io .pf 4).ain 4, (io .pf 5).ain 5, (io .pf 6).ain 6, (io .pf 7).ain 7, (io .pk 0).ain 8, (io .pk 1).ain 9, (io .pk 2).ain 10,
   (io .pk 3).ain 11, (io .pk 4).ain 12, (io .pk 5).ain 13, (io .pk 6).ain 14, (io .pk 7).ain 15]

/-- The Mega. -/
def mega : Board where
  pins := megaPins
  wide := false
  digital := 54
  packed := true
  modes := [(.t0, 3), (.t1, 1), (.t2, 1), (.t3, 1), (.t4, 1), (.t5, 1)]
  clears := false
  adcPull := false
  tone := none

/-- Pins 0 to 19 of the ATmega32U4 boards, itsybitsy5v/ao-pins.h:31-50, 57-92. `COM4D1` is bit 3; it is written to `TCCR4A`. -/
def u4Pins : List Pin := [
  io .pd 2, io .pd 3, io .pd 1, (io .pd 0).tim .t0 1 .t0 5, io .pd 4, (io .pc 6).tim .t3 0 .t3 7, (io .pd 7).tim .t4 3 .t4 3, io .pe 6, io .pb 4,
  (io .pb 5).tim .t1 0 .t1 7, (io .pb 6).tim .t1 1 .t1 5, (io .pb 7).tim .t0 0 .t0 7, io .pd 6, (io .pc 7).tim .t4 0 .t4 7,
  (io .pf 7).ain 7, (io .pf 6).ain 6, (io .pf 5).ain 5, (io .pf 4).ain 4, (io .pf 1).ain 1, (io .pf 0).ain 0]

/-- ItsyBitsy (3v and 5v): pins 20 to 22 are itsybitsy5v/ao-pins.h:51-53. -/
def itsy : Board where
  pins := u4Pins ++ [io .pb 3, io .pb 2, io .pb 1]
  wide := false
  digital := 14
  packed := false
  modes := [(.t0, 3), (.t1, 1), (.t3, 1), (.t4, 3)]
  clears := true
  adcPull := true
  tone := none

/-- µduino: `NUM_PIN` is 23 but the table ends with pin 19 (uduino/ao-pins.h:30-51); the rest is zero, which is port B bit 0. -/
def uduino : Board := { itsy with pins := u4Pins ++ [io .pb 0, io .pb 0, io .pb 0] }

/-- The Nano Every, snek-nano-every.c:126-179, 211-255, 498-507. -/
def every : Board where
  pins := [
    io .pb 4, io .pb 5, io .pa 0, (io .pf 5).tim .tcb1 0 .tcb1 4, io .pc 6, (io .pb 2).tim .tca0 2 .tca0 6, (io .pf 4).tim .tcb0 0 .tcb0 4, io .pa 1, io .pe 3,
    (io .pb 0).tim .tca0 0 .tca0 4, (io .pb 1).tim .tca0 1 .tca0 5, io .pe 0, io .pe 1, io .pe 2,
    (io .pd 3).ain 3, (io .pd 2).ain 2, (io .pd 1).ain 1, (io .pd 0).ain 0, (io .pa 2).ain 12, (io .pa 3).ain 13, (io .pd 4).ain 4, (io .pd 5).ain 5]
  wide := true
  digital := 14
  packed := true
  modes := [(.tca0, 3), (.tcb0, 7), (.tcb1, 7)]
  clears := false
  adcPull := false
  tone := some 5

/-- `NUM_PIN`. -/
def Board.n (b : Board) : Nat := b.pins.length

/-- The entries for a pin. -/
def Board.pin (b : Board) (p : Nat) : Pin := b.pins.getD p (io .pb 0)

/-- The greatest power: `memset(power, 0xff, …)`. -/
def Board.full (b : Board) : BitVec 16 := if b.wide then 65535 else 255

/-- Change one entry. -/
def put {α β : Type} [DecidableEq α] (f : α → β) (q : α) (v : β) : α → β := fun p => if p = q then v else f p

/-- A flag, `is_on` and `is_pull`: snek-mega.c:463-467, 518-522; ao-snek-avr.c:303-307. -/
def flag (b : Board) (f : Nat → BitVec 8) (p : Nat) : Bool := if b.packed then (f (p / 8)).getLsbD (p % 8) else f p != 0

/-- Setting a flag: snek-mega.c:524-528, 615-621; ao-snek-avr.c:309-313, 404. -/
def raise (b : Board) (f : Nat → BitVec 8) (p : Nat) : Nat → BitVec 8 :=
  if b.packed then put f (p / 8) (f (p / 8) ||| 1#8 <<< (p % 8)) else put f p 1

/-- Clearing a flag: snek-mega.c:530-534, 606-612; ao-snek-avr.c:315-319, 395. -/
def lower (b : Board) (f : Nat → BitVec 8) (p : Nat) : Nat → BitVec 8 :=
  if b.packed then put f (p / 8) (f (p / 8) &&& ~~~ (1#8 <<< (p % 8))) else put f p 0

/-- The pull-ups at the start, snek-mega.c:115-117: a loop over the digital pins. (On the ATmega32U4 an initialised array, ao-snek-avr.c:70-75.) -/
def pulls (b : Board) : Nat → Nat → BitVec 8
  | 0 => fun _ => 0
  | p + 1 => raise b (pulls b p) p

/-- The control registers after `port_init`. -/
def inits (l : List (Tm × BitVec 8)) (f : Tm → BitVec 8) : Tm → BitVec 8 := l.foldl (fun f x => put f x.1 x.2) f

/-- After a reset of the chip (registers zero) and `port_init`, snek-mega.c:39-118, ao-snek-avr.c:94-168, snek-nano-every.c:43-79. -/
def init (b : Board) : St where
  ddr := fun _ => 0
  out := fun _ => 0
  ocr := fun _ _ => 0
  tcc := inits b.modes fun _ => 0
  powerPin := 0
  dirPin := 0
  power := fun _ => b.full
  onPins := fun _ => 0
  pullPins := pulls b b.digital

/-- `reset()`, snek-mega.c:140-146, snek-nano-every.c:97-102: a reset of the chip; ao-snek-avr.c:495-511: `port_init` again (:94-168), with the data and bss of
the files `snek*` restored (chips/avr/snek-avr51.x:172-175, 191-195), which `ao-snek-avr.o` is not. -/
def reset (b : Board) (s : St) : St :=
  if b.clears then { s with ddr := fun _ => 0, out := fun _ => 0, tcc := inits b.modes s.tcc, power := fun _ => b.full }
  else init b

/-- `is_on`. -/
def isOn (b : Board) (s : St) (p : Nat) : Bool := flag b s.onPins p

/-- `is_pull`. -/
def isPull (b : Board) (s : St) (p : Nat) : Bool := flag b s.pullPins p

/-- `set_on`. -/
def setOn (b : Board) (p : Nat) (s : St) : St := { s with onPins := raise b s.onPins p }

/-- `set_off`. -/
def setOff (b : Board) (p : Nat) (s : St) : St := { s with onPins := lower b s.onPins p }

/-- `*port_reg(pin) |= bit(pin)` or `&= ~bit(pin)`. -/
def setPort (e : Pin) (v : Bool) (s : St) : St :=
  { s with out := put s.out e.port (if v then s.out e.port ||| 1#8 <<< e.bit else s.out e.port &&& ~~~ (1#8 <<< e.bit)) }

/-- `set_dir(pin, 1)`, snek-mega.c:469-478, ao-snek-avr.c:254-262, snek-nano-every.c:262-270. -/
def setDirOut (b : Board) (p : Nat) (s : St) : St :=
  let e := b.pin p
  { s with ddr := put s.ddr e.port (s.ddr e.port ||| 1#8 <<< e.bit) }

/-- The direction part of `set_dir(pin, 0)`. -/
def clrDir (e : Pin) (s : St) : St := { s with ddr := put s.ddr e.port (s.ddr e.port &&& ~~~ (1#8 <<< e.bit)) }

/-- `set_dir(pin, 0)`, snek-mega.c:469-485, ao-snek-avr.c:254-269, snek-nano-every.c:262-278. -/
def setDirIn (b : Board) (p : Nat) (s : St) : St := setPort (b.pin p) (isPull b s p) (clrDir (b.pin p) s)

/-- The value for the compare register: `p |= 0xff` if it is not TCA0, snek-nano-every.c:346-347. -/
def compare (b : Board) (c : Tm) (v : BitVec 16) : BitVec 16 := if b.wide && c != .tca0 then v ||| 0xff else v

/-- `*ocr_reg(pin) = p; *tcc_reg(pin) |= tcc_val(pin)`. -/
def dim (b : Board) (w : Tm × Nat × Tm × Nat) (v : BitVec 16) (s : St) : St :=
  { s with
    ocr := put s.ocr w.1 (put (s.ocr w.1) w.2.1 (compare b w.2.2.1 v))
    tcc := put s.tcc w.2.2.1 (s.tcc w.2.2.1 ||| 1#8 <<< w.2.2.2) }

/-- `*tcc_reg(pin) &= ~tcc_val(pin)`. -/
def undim (w : Tm × Nat × Tm × Nat) (s : St) : St := { s with tcc := put s.tcc w.2.2.1 (s.tcc w.2.2.1 &&& ~~~ (1#8 <<< w.2.2.2)) }

/-- The value `set_out` works with. -/
def want (b : Board) (s : St) (p : Nat) : BitVec 16 := if isOn b s p then s.power p else 0

/-- `set_out` for a value, snek-mega.c:544-556, ao-snek-avr.c:329-341, snek-nano-every.c:337-361. -/
def setTo (b : Board) (e : Pin) (v : BitVec 16) (s : St) : St :=
  match e.pwm with
  | some w => if 0 < v ∧ v < b.full then dim b w v s else setPort e (v != 0) (undim w s)
  | none => setPort e (v != 0) s

/-- `set_out`, snek-mega.c:536-557, ao-snek-avr.c:321-342, snek-nano-every.c:329-362. -/
def setOut (b : Board) (p : Nat) (s : St) : St := setTo b (b.pin p) (want b s p) s

/-- The conversion of `setpower`: to a byte as on the ATmega328P, to 16 bits as on the SAMD21 (snek-mega.c:562-565, ao-snek-avr.c:347-350,
snek-nano-every.c:437-440). -/
def toPower (b : Board) (v : BitVec 32) : Option (BitVec 16) :=
  if b.wide then (Pins.powerWord v).map (BitVec.ofNat 16) else (Gpio.powerByte v).map (BitVec.zeroExtend 16)

/-- Calls of the pin functions with valid arguments (others are errors that change nothing, snek-mega.c:487-516). `onfor` is `on`, sleep, `off`. -/
inductive Call
  | talkto (p d : Nat)
  | setpower (v : BitVec 32)
  | setleft | setright | on | off
  | pullnone (p : Nat) | pullup (p : Nat)
  | read (p : Nat)
  | stopall

/-- One round of the loop of `stopall`. -/
def stopOne (b : Board) (p : Nat) (s : St) : St := if isOn b s p then setOut b p (setOff b p s) else s

/-- The loop of `stopall`, snek-mega.c:653-657, ao-snek-avr.c:438-442, snek-nano-every.c:545-549, `n` pins from `p` on. -/
def stopFrom (b : Board) : Nat → Nat → St → St
  | 0, _, s => s
  | n + 1, p, s => stopFrom b n (p + 1) (stopOne b p s)

/-- The part of `tone_reset` that concerns pins, snek-nano-every.c:366-374. -/
def toneReset (b : Board) (p : Nat) (s : St) : St :=
  match (b.pin p).pwm with
  | some w => setOff b p (undim w s)
  | none => setOff b p s

/-- `stopall`, snek-mega.c:649-659, ao-snek-avr.c:434-444, snek-nano-every.c:540-551. -/
def stopall (b : Board) (s : St) : St :=
  stopFrom b b.n 0 (match b.tone with | some p => toneReset b p s | none => s)

/-- `talkto`, snek-mega.c:496-516, ao-snek-avr.c:281-301, snek-nano-every.c:289-309. -/
def talkto (b : Board) (p d : Nat) (s : St) : St := { setDirOut b d (setDirOut b p s) with powerPin := p, dirPin := d }

/-- The functions, snek-mega.c:496-516, 559-661; ao-snek-avr.c:281-301, 344-444; snek-nano-every.c:289-309, 434-551. -/
def call (b : Board) : Call → St → Option St
  | .talkto p d, s => some (talkto b p d s)
  | .setpower v, s => (toPower b v).map fun x => setOut b s.powerPin { s with power := put s.power s.powerPin x }
  | .setleft, s => some (setOut b s.dirPin (setOn b s.dirPin s))
  | .setright, s => some (setOut b s.dirPin (setOff b s.dirPin s))
  | .on, s => some (setOut b s.powerPin (setOn b s.powerPin s))
  | .off, s => some (setOut b s.powerPin (setOff b s.powerPin s))
  | .pullnone p, s => some { s with pullPins := lower b s.pullPins p }
  | .pullup p, s => some { s with pullPins := raise b s.pullPins p }
  | .read p, s => some (setDirIn b p s)
  | .stopall, s => some (stopall b s)

/-- The converter input `read` selects, if it does: snek-mega.c:632-634, ao-snek-avr.c:418-420, snek-nano-every.c:522-525. -/
def selects (b : Board) (s : St) (p : Nat) : Option Nat := if b.adcPull && isPull b s p then none else (b.pin p).adc

/-- What `read` returns for these inputs of the chip (the ports' `PIN` registers, the converter's result for an input), snek-mega.c:625-646, ao-snek-avr.c:410-431,
snek-nano-every.c:514-537. -/
def readValue (b : Board) (s : St) (p : Nat) (pins : Port → BitVec 8) (adc : Nat → Nat) : BitVec 32 :=
  match selects b s p with
  | some k => fdiv (intToF (adc k)) (intToF 1023)
  | none => intToF (if (pins (b.pin p).port).getLsbD (b.pin p).bit then 1 else 0)

/-- A sequence of calls. -/
def calls (b : Board) : List Call → St → Option St
  | [], s => some s
  | c :: l, s => (call b c s).bind (calls b l)

end Snek.AvrPins
