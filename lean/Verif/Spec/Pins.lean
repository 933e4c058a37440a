import Verif.Model.Pins
/-!
# Pins of the SAMD21 boards

The data sheet of the chip: what a pin drives. The manual: what the functions promise.
-/
namespace Spec.Pins
open Snek.Pins

/-! ## The data sheet -/

/-- Number of compare channels of a timer (table "TCC configurations"; a TC has two). Waveform output `w` follows channel `w` modulo that number. -/
def channels : Timer → Nat | .tcc0 => 4 | _ => 2

/-- Table "PORT function multiplexing", columns E and F: timer and waveform output a pin is connected to (other peripherals left out). -/
def wave (g : Gp) (fn : Func) : Option (Timer × Nat) :=
  match g.port, fn, g.bit with
  | .a, .e, 0 => some (.tcc2, 0) | .a, .e, 1 => some (.tcc2, 1) | .a, .e, 4 => some (.tcc0, 0) | .a, .e, 5 => some (.tcc0, 1)
  | .a, .e, 6 => some (.tcc1, 0) | .a, .e, 7 => some (.tcc1, 1) | .a, .e, 8 => some (.tcc0, 0) | .a, .e, 9 => some (.tcc0, 1)
  | .a, .e, 10 => some (.tcc1, 0) | .a, .e, 11 => some (.tcc1, 1) | .a, .e, 12 => some (.tcc2, 0) | .a, .e, 13 => some (.tcc2, 1)
  | .a, .e, 14 => some (.tc3, 0) | .a, .e, 15 => some (.tc3, 1) | .a, .e, 16 => some (.tcc2, 0) | .a, .e, 17 => some (.tcc2, 1)
  | .a, .e, 18 => some (.tc3, 0) | .a, .e, 19 => some (.tc3, 1) | .a, .e, 22 => some (.tc4, 0) | .a, .e, 23 => some (.tc4, 1)
  | .a, .e, 24 => some (.tc5, 0) | .a, .e, 25 => some (.tc5, 1) | .a, .e, 30 => some (.tcc1, 0) | .a, .e, 31 => some (.tcc1, 1)
  | .b, .e, 8 => some (.tc4, 0) | .b, .e, 9 => some (.tc4, 1) | .b, .e, 10 => some (.tc5, 0) | .b, .e, 11 => some (.tc5, 1)
  | .a, .f, 8 => some (.tcc1, 2) | .a, .f, 9 => some (.tcc1, 3) | .a, .f, 10 => some (.tcc0, 2) | .a, .f, 11 => some (.tcc0, 3)
  | .a, .f, 12 => some (.tcc0, 6) | .a, .f, 13 => some (.tcc0, 7) | .a, .f, 14 => some (.tcc0, 4) | .a, .f, 15 => some (.tcc0, 5)
  | .a, .f, 16 => some (.tcc0, 6) | .a, .f, 17 => some (.tcc0, 7) | .a, .f, 18 => some (.tcc0, 2) | .a, .f, 19 => some (.tcc0, 3)
  | .a, .f, 20 => some (.tcc0, 6) | .a, .f, 21 => some (.tcc0, 7) | .a, .f, 22 => some (.tcc0, 4) | .a, .f, 23 => some (.tcc0, 5)
  | .a, .f, 24 => some (.tcc1, 2) | .a, .f, 25 => some (.tcc1, 3) | .b, .f, 10 => some (.tcc0, 4) | .b, .f, 11 => some (.tcc0, 5)
  | _, _, _ => none

/-- The input of the converter a pin is connected to (the same table, column B). -/
def ain (g : Gp) : Option Nat :=
  match g.port, g.bit with
  | .a, 2 => some 0 | .a, 3 => some 1 | .b, 8 => some 2 | .b, 9 => some 3 | .a, 4 => some 4 | .a, 5 => some 5 | .a, 6 => some 6 | .a, 7 => some 7
  | .b, 2 => some 10 | .b, 3 => some 11 | .a, 8 => some 16 | .a, 9 => some 17 | .a, 10 => some 18 | .a, 11 => some 19
  | _, _ => none

/-- The function a pin is given if the multiplexer is on: PMUX has four bits for each pin, those of even pins first. -/
def muxOf (h : Hw) (g : Gp) : BitVec 8 := (h.mux g.port (g.bit / 2) >>> (4 * (g.bit % 2))) &&& 0xf

/-- Bit PMUXEN, PULLEN of the configuration of a pin. -/
def muxed (h : Hw) (g : Gp) : Bool := (h.cfg g).getLsbD 0
def pulled (h : Hw) (g : Gp) : Bool := (h.cfg g).getLsbD 2

/-- Which channel of which timer makes the signal of a pin. -/
def source (g : Gp) (fn : Func) : Option (Timer × Nat) := (wave g fn).map fun (t, w) => (t, w % channels t)

/-- What a pin drives: `none` if nothing, else a level from 0 to 65535. With the multiplexer on, function 1 is the analog one (the DAC is at PA02), 4 and 5
are the timers', whose channels have the signal high for the given part of 65536. -/
def drives (h : Hw) (g : Gp) : Option Nat :=
  if muxed h g then
    if muxOf h g = 1 then if g = ⟨.a, 2⟩ then some h.dac else none
    else if muxOf h g = 4 then (source g .e).map fun (t, c) => h.cc t c
    else if muxOf h g = 5 then (source g .f).map fun (t, c) => h.cc t c
    else none
  else if h.dir g then some (if h.out g then 65535 else 0)
  else none

/-- What is connected to the pin gets, if it is connected the other way round: the level counted from the top. -/
def gets (b : Board) (h : Hw) (q : Nat) : Option Nat :=
  (drives h (b.pin q).gpio).map fun v => if (b.pin q).invert then 65535 - v else v

/-! ## The table of a board -/

/-- Pin `q` of a board is wired for itself: no other pin is the same pin of the chip, and if it is given a timer then the channel is the one the chip
connects to this pin, and no other pin uses it. -/
structure Alone (b : Board) (q : Nat) : Prop where
  gpio : ∀ p < b.num, p ≠ q → (b.pin p).gpio ≠ (b.pin q).gpio
  timer : ∀ t, (b.pin q).timer = some t → (b.pin q).gpio ≠ ⟨.a, 2⟩ ∧ source (b.pin q).gpio (b.pin q).func = some (t, (b.pin q).chan) ∧
    ∀ p < b.num, p ≠ q → (b.pin p).timer = some t → (b.pin p).chan ≠ (b.pin q).chan
  dac : (b.pin q).gpio = ⟨.a, 2⟩ → (b.pin q).invert = false

/-- The board has some pin, those of the motors, and that of the lamps, which is not of a motor. -/
structure Sound (b : Board) : Prop where
  pos : 0 < b.num
  drv : b.drv = true → 8 ≤ b.num
  lamps : ∀ p, b.lamps = some p → p < b.num ∧ b.motor p = none

/-! ## The manual -/

/-- What the program has asked for: current pins, which pins are on, their powers, and which are outputs (were last talked to, and not read). -/
structure Asked where
  cur : Nat
  dir : Nat
  on : Nat → Bool
  power : Nat → Nat
  out : Nat → Bool

/-- At the start all pins are off, with full power, and inputs. -/
def start : Asked := ⟨0, 0, fun _ => false, fun _ => 65535, fun _ => false⟩

/-- The manual, section "GPIO functions". -/
def told (a : Asked) : Call → Asked
  | .talkto p d => { a with cur := p, dir := d, out := fun q => decide (q = p) || decide (q = d) || a.out q }
  | .setpower v => { a with power := fun q => if q = a.cur then (powerWord v).getD 0 else a.power q }
  | .setleft => { a with on := fun q => decide (q = a.dir) || a.on q }
  | .setright => { a with on := fun q => !decide (q = a.dir) && a.on q }
  | .on => { a with on := fun q => decide (q = a.cur) || a.on q }
  | .off => { a with on := fun q => !decide (q = a.cur) && a.on q }
  | .stopall => { a with on := fun _ => false }
  | .read p => { a with out := fun q => !decide (q = p) && a.out q }
  | .pullnone _ | .pullup _ | .pulldown _ => a

/-- The power asked of a pin. A motor has two pins: the first gets the power for turning right, the second for turning left. -/
def request (b : Board) (a : Asked) (q : Nat) : Nat :=
  if b.drv ∧ (q = 4 ∨ q = 6) then (if a.on q ∧ ¬ a.on (q + 1) then a.power q else 0)
  else if b.drv ∧ (q = 5 ∨ q = 7) then (if a.on (q - 1) ∧ a.on q then a.power (q - 1) else 0)
  else if a.on q then a.power q else 0

/-- Pins with neither timer nor DAC are fully on or off. -/
def level (b : Board) (a : Asked) (q : Nat) : Nat :=
  if (b.pin q).timer.isSome ∨ (b.pin q).gpio = ⟨.a, 2⟩ then request b a q else if request b a q = 0 then 0 else 65535

/-- Arguments: pins of the board, powers that are numbers. -/
def Valid (b : Board) : Call → Prop
  | .talkto p d => p < b.num ∧ d < b.num
  | .read p | .pullnone p | .pullup p | .pulldown p => p < b.num
  | .setpower v => Snek.isNanF v = false
  | _ => True

/-- How the input of a pin is to be pulled: as the last call for it said, else as the board has it. -/
def pullOf (b : Board) (p : Nat) (l : List Call) : Pull :=
  l.foldl (fun m c => if c = .pullnone p then .none else if c = .pullup p then .up else if c = .pulldown p then .down else m)
    (if (b.pin p).pullDown then .down else .none)

end Spec.Pins
