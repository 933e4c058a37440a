import Verif.Model.AvrPins
/-!
# Pins of the other AVR boards

Where the boards connect their pins (Arduino's and Adafruit's pin diagrams), what the data sheets say about the chips' pins, and what the manual promises.
-/
namespace Spec.AvrPins
open Snek.AvrPins

inductive Chip
  | m2560 | m32u4 | m4809
  deriving DecidableEq

/-- Port and bit of a pin of the Arduino Mega. -/
def megaWire (q : Nat) : Option (Port × Nat) :=
  if q = 0 then some (.pe, 0) else if q = 1 then some (.pe, 1) else if q = 2 then some (.pe, 4) else if q = 3 then some (.pe, 5)
  else if q = 4 then some (.pg, 5) else if q = 5 then some (.pe, 3)
  else if q < 10 then some (.ph, q - 3) else if q < 14 then some (.pb, q - 6) else if q < 16 then some (.pj, 15 - q) else if q < 18 then some (.ph, 17 - q)
  else if q < 22 then some (.pd, 21 - q) else if q < 30 then some (.pa, q - 22) else if q < 38 then some (.pc, 37 - q) else if q = 38 then some (.pd, 7)
  else if q < 42 then some (.pg, 41 - q) else if q < 50 then some (.pl, 49 - q) else if q < 54 then some (.pb, 53 - q) else if q < 62 then some (.pf, q - 54)
  else if q < 70 then some (.pk, q - 62) else none

/-- Pins of the ItsyBitsy and the µduino: D0 to D13, A0 to A5; on the ItsyBitsy then MISO, MOSI, SCK. -/
def u4Wire (spi : Bool) : Nat → Option (Port × Nat)
  | 0 => some (.pd, 2) | 1 => some (.pd, 3) | 2 => some (.pd, 1) | 3 => some (.pd, 0) | 4 => some (.pd, 4) | 5 => some (.pc, 6) | 6 => some (.pd, 7)
  | 7 => some (.pe, 6) | 8 => some (.pb, 4) | 9 => some (.pb, 5) | 10 => some (.pb, 6) | 11 => some (.pb, 7) | 12 => some (.pd, 6) | 13 => some (.pc, 7)
  | 14 => some (.pf, 7) | 15 => some (.pf, 6) | 16 => some (.pf, 5) | 17 => some (.pf, 4) | 18 => some (.pf, 1) | 19 => some (.pf, 0)
  | 20 => if spi then some (.pb, 3) else none
  | 21 => if spi then some (.pb, 2) else none
  | 22 => if spi then some (.pb, 1) else none
  | _ => none

/-- Pins of the Nano Every, from 2 (0 and 1 are the code's). -/
def everyWire : Nat → Option (Port × Nat)
  | 0 => some (.pb, 4) | 1 => some (.pb, 5)
  | 2 => some (.pa, 0) | 3 => some (.pf, 5) | 4 => some (.pc, 6) | 5 => some (.pb, 2) | 6 => some (.pf, 4) | 7 => some (.pa, 1) | 8 => some (.pe, 3)
  | 9 => some (.pb, 0) | 10 => some (.pb, 1) | 11 => some (.pe, 0) | 12 => some (.pe, 1) | 13 => some (.pe, 2)
  | 14 => some (.pd, 3) | 15 => some (.pd, 2) | 16 => some (.pd, 1) | 17 => some (.pd, 0) | 18 => some (.pa, 2) | 19 => some (.pa, 3)
  | 20 => some (.pd, 4) | 21 => some (.pd, 5)
  | _ => none

/-- Which output of which timer a pin of the chip can be: the compare register, and control register and bit that connect it. ATmega2560: OC0A PB7, OC0B PG5, OC1A
PB5, OC1B PB6, OC2A PB4, OC2B PH6, OC3A–C PE3–5, OC4A–C PH3–5, OC5A–C PL3–5; COMnA1 is bit 7, COMnB1 5, COMnC1 3. ATmega32U4: OC0A PB7, OC0B PD0, OC1A PB5, OC1B PB6,
OC3A PC6, OC4A PC7, OC4D PD7, whose COM4D1 is bit 3 of TCCR4C. ATmega4809: TCA0 WO0–2 PB0–2, TCB0 PF4, TCB1 PF5; CMPnEN is bit 4 + n, CCMPEN bit 4. -/
def oc : Chip → Port → Nat → Option (Tm × Nat × Tm × Nat)
  | .m2560, .pb, 7 => some (.t0, 0, .t0, 7)
  | .m2560, .pg, 5 => some (.t0, 1, .t0, 5)
  | .m2560, .pb, 5 => some (.t1, 0, .t1, 7)
  | .m2560, .pb, 6 => some (.t1, 1, .t1, 5)
  | .m2560, .pb, 4 => some (.t2, 0, .t2, 7)
  | .m2560, .ph, 6 => some (.t2, 1, .t2, 5)
  | .m2560, .pe, 3 => some (.t3, 0, .t3, 7)
  | .m2560, .pe, 4 => some (.t3, 1, .t3, 5)
  | .m2560, .pe, 5 => some (.t3, 2, .t3, 3)
  | .m2560, .ph, 3 => some (.t4, 0, .t4, 7)
  | .m2560, .ph, 4 => some (.t4, 1, .t4, 5)
  | .m2560, .ph, 5 => some (.t4, 2, .t4, 3)
  | .m2560, .pl, 3 => some (.t5, 0, .t5, 7)
  | .m2560, .pl, 4 => some (.t5, 1, .t5, 5)
  | .m2560, .pl, 5 => some (.t5, 2, .t5, 3)
  | .m32u4, .pb, 7 => some (.t0, 0, .t0, 7)
  | .m32u4, .pd, 0 => some (.t0, 1, .t0, 5)
  | .m32u4, .pb, 5 => some (.t1, 0, .t1, 7)
  | .m32u4, .pb, 6 => some (.t1, 1, .t1, 5)
  | .m32u4, .pc, 6 => some (.t3, 0, .t3, 7)
  | .m32u4, .pc, 7 => some (.t4, 0, .t4, 7)
  | .m32u4, .pd, 7 => some (.t4, 3, .t4c, 3)
  | .m4809, .pb, 0 => some (.tca0, 0, .tca0, 4)
  | .m4809, .pb, 1 => some (.tca0, 1, .tca0, 5)
  | .m4809, .pb, 2 => some (.tca0, 2, .tca0, 6)
  | .m4809, .pf, 4 => some (.tcb0, 0, .tcb0, 4)
  | .m4809, .pf, 5 => some (.tcb1, 0, .tcb1, 4)
  | _, _, _ => none

/-- How long a timer's output is high: as many steps as the compare register says; TCB in 8-bit mode: of the `low + 1` steps of a period `high`, here in 65536ths. -/
def duty (t : Tm) (v : Nat) : Nat := if t = .tcb0 ∨ t = .tcb1 then v / 256 * 65536 / (v % 256 + 1) else v

/-- What a pin of the chip drives: `none` if it is an input, else a level from 0 to `full`. -/
def drives (c : Chip) (full : Nat) (s : St) (g : Port) (k : Nat) : Option Nat :=
  let port := if (s.out g).getLsbD k then full else 0
  if (s.ddr g).getLsbD k then
    some (match oc c g k with
      | some (t, ch, r, j) => if (s.tcc r).getLsbD j then duty t (s.ocr t ch).toNat else port
      | none => port)
  else none

/-- Whether the pull-up of an input is connected: on the older chips by the output bit; on the ATmega4809 only by the register `PINnCTRL`, which Snek never writes. -/
def pulled (c : Chip) (s : St) (g : Port) (k : Nat) : Bool := c ≠ .m4809 && !(s.ddr g).getLsbD k && (s.out g).getLsbD k

/-- The input of the converter a pin is. ATmega2560: ADC0–7 are PF0–7, ADC8–15 PK0–7, selected by MUX5 (32) and 0 to 7. ATmega32U4: PF0, 1, 4–7. ATmega4809: AIN0–7 are PD0–7,
AIN12 and 13 PF2 and PF3, which the board connects to PA2 and PA3. -/
def analog : Chip → Port → Nat → Option Nat
  | .m2560, .pf, k => some k
  | .m2560, .pk, k => some (32 + k)
  | .m32u4, .pf, k => some k
  | .m4809, .pd, k => some k
  | .m4809, .pa, 2 => some 12
  | .m4809, .pa, 3 => some 13
  | _, _, _ => none

/-- What the program has asked for: current pins, which pins are on, their powers. -/
structure Told where
  cur : Nat
  dir : Nat
  on : Nat → Bool
  power : Nat → Nat

/-- At the start all pins are off, with full power. -/
def start (full : Nat) : Told := ⟨0, 0, fun _ => false, fun _ => full⟩

/-- Change one entry. -/
def upd {α : Type} (f : Nat → α) (q : Nat) (v : α) : Nat → α := fun p => if p = q then v else f p

/-- The manual, section "General purpose I/O"; `pw` is the number for a power. -/
def told (pw : BitVec 32 → Nat) (a : Told) : Call → Told
  | .talkto p d => { a with cur := p, dir := d }
  | .setpower v => { a with power := upd a.power a.cur (pw v) }
  | .setleft => { a with on := upd a.on a.dir true }
  | .setright => { a with on := upd a.on a.dir false }
  | .on => { a with on := upd a.on a.cur true }
  | .off => { a with on := upd a.on a.cur false }
  | .stopall => { a with on := fun _ => false }
  | .pullnone _ => a
  | .pullup _ => a
  | .read _ => a

/-- A power the timer can show: those of the 8-bit timers TCB are rounded down to 256ths, except full power. -/
def shown (full : Nat) (t : Tm) (v : Nat) : Nat := if (t = .tcb0 ∨ t = .tcb1) ∧ v ≠ full then v / 256 * 256 else v

/-- The level a pin should have: its power if it is on, else 0. Pins without a timer are fully on or off. -/
def level (c : Chip) (full : Nat) (a : Told) (q : Nat) (g : Port) (k : Nat) : Nat :=
  if a.on q then (match oc c g k with | some w => shown full w.1 (a.power q) | none => if a.power q = 0 then 0 else full) else 0

/-- Boards and their wiring. -/
def boards : List (Board × Chip × (Nat → Option (Port × Nat))) :=
  [(mega, .m2560, megaWire), (itsy, .m32u4, u4Wire true), (uduino, .m32u4, u4Wire false), (every, .m4809, everyWire)]

end Spec.AvrPins
