import Verif.Model.Cmp
import Verif.Model.F32
/-!
# Pins of the SAMD21 boards

Models `chips/samd21/snek-gpio.c:19-31, 246-690` (without `neopixel`, `tone` and the ramps, which no board turns on), with
`chips/samd21/ao-snek.c:25-108`, `ao-arch-funcs.h:37-101`, `samd21.h:670-702`, `ao-tcc-samd21.c:24-28`, `ao-tc-samd21.c:24-28`,
`ao-dac-samd21.c:125-146` (no tone playing), and the tables `ports/*/ao-pins.h` of eight boards. Clocks, drive strength (always 0) and the
converter's own registers are left out; what pins and converter read is an input. `none` is undefined behaviour.
-/
namespace Snek.Pins

/-- The two ports, `samd21_port_a` and `samd21_port_b`. -/
inductive Port | a | b
  deriving DecidableEq, Repr

/-- A pin of the chip. -/
structure Gp where
  port : Port
  bit : Nat
  deriving DecidableEq, Repr

/-- The timers used. -/
inductive Timer | tcc0 | tcc1 | tcc2 | tc3 | tc4 | tc5
  deriving DecidableEq, Repr

/-- AO_SNEK_TIMER_FUNC_E and _F, ao-pins.h (ports/crickit/ao-pins.h:37-38). -/
inductive Func | e | f
  deriving DecidableEq, Repr

/-- AO_SNEK_TIMER_DEV_TCC and _TC, ao-pins.h (ports/crickit/ao-pins.h:40-41). -/
inductive Dev | tcc | tc
  deriving DecidableEq, Repr

/-- `struct ao_snek_pin`, snek-gpio.c:30-37; `config` is the `channel` split into its parts, `adc` is `none` for 0xff. -/
structure Pin where
  gpio : Gp
  timer : Option Timer := none
  ch : Nat := 0
  func : Func := .e
  dev : Dev := .tcc
  adc : Option Nat := none
  invert : Bool := false
  pullDown : Bool := false
  deriving DecidableEq, Repr

/-- Table entries (macros of ao-pins.h): a pin alone, -/
def gp (p : Port) (k : Nat) : Pin := { gpio := ⟨p, k⟩ }
/-- with a timer, -/
def Pin.pwm (x : Pin) (t : Timer) (ch : Nat) (fn : Func) (d : Dev) : Pin := { x with timer := some t, ch := ch, func := fn, dev := d }
/-- with a converter input, -/
def Pin.ain (x : Pin) (n : Nat) : Pin := { x with adc := some n }
/-- with SNEK_PIN_INVERT, -/
def Pin.inv (x : Pin) : Pin := { x with invert := true }
/-- with SNEK_PIN_PULL_DOWN. -/
def Pin.down (x : Pin) : Pin := { x with pullDown := true }

/-- A board: `ao_snek_pin`, snek-gpio.c:133-229; whether SNEK_DRV8833 is defined; NEOPIXEL_RESET_POWER_PIN. -/
structure Board where
  pins : List Pin
  drv : Bool
  lamps : Option Nat

/-- `ports/crickit/ao-pins.h:79-269`, and the motors, lines 120-124; lamps of the board on pin 24. -/
def crickit : Board where
  pins := [
    gp .b 10 |>.pwm .tc5 0 .e .tc, gp .b 11 |>.pwm .tc5 1 .e .tc, gp .a 12 |>.pwm .tcc2 0 .e .tcc, gp .a 13 |>.pwm .tcc2 1 .e .tcc,
    gp .a 22 |>.pwm .tc4 0 .e .tc, gp .a 23 |>.pwm .tc4 1 .e .tc, gp .a 19 |>.pwm .tc3 1 .e .tc, gp .a 18 |>.pwm .tc3 0 .e .tc,
    gp .a 17 |>.pwm .tcc0 3 .f .tcc, gp .a 16 |>.pwm .tcc0 2 .f .tcc, gp .a 15 |>.pwm .tcc0 1 .f .tcc, gp .a 14 |>.pwm .tcc0 0 .f .tcc, gp .a 4,
    gp .a 5, gp .a 6, gp .a 6, gp .a 2 |>.ain 0, gp .a 3 |>.ain 1, gp .b 8 |>.ain 2, gp .b 9 |>.ain 3, gp .a 11 |>.pwm .tcc1 1 .e .tcc |>.ain 19,
    gp .a 10 |>.pwm .tcc1 0 .e .tcc |>.ain 18, gp .a 9 |>.pwm .tcc1 3 .f .tcc |>.ain 17, gp .a 8 |>.pwm .tcc1 2 .f .tcc |>.ain 16, gp .a 27, gp .a 20]
  drv := true
  lamps := some 24

/-- `ports/feather/ao-pins.h:102-261`; lamps of the board on pin 8. -/
def feather : Board where
  pins := [
    gp .a 11, gp .a 10, gp .a 14, gp .a 9 |>.pwm .tcc0 1 .e .tcc, gp .a 8 |>.pwm .tcc0 0 .e .tcc, gp .a 15 |>.pwm .tc3 1 .e .tc,
    gp .a 20 |>.pwm .tcc0 2 .f .tcc, gp .a 21 |>.pwm .tcc0 3 .f .tcc, gp .a 6 |>.pwm .tcc1 0 .e .tcc, gp .a 7 |>.pwm .tcc1 1 .e .tcc,
    gp .a 18 |>.pwm .tc3 0 .e .tc, gp .a 16 |>.pwm .tcc2 0 .e .tcc, gp .a 19, gp .a 17 |>.pwm .tcc2 1 .e .tcc, gp .a 2 |>.ain 0, gp .b 8 |>.ain 2,
    gp .b 9 |>.ain 3, gp .a 4 |>.ain 4, gp .a 5 |>.ain 5, gp .b 2 |>.ain 10, gp .a 22, gp .a 23, gp .b 11, gp .b 10, gp .a 12]
  drv := false
  lamps := some 8

/-- `ports/itsybitsym0/ao-pins.h:77-246`. -/
def itsybitsym0 : Board where
  pins := [
    gp .a 11, gp .a 10, gp .a 14, gp .a 9 |>.pwm .tcc0 1 .e .tcc, gp .a 8 |>.pwm .tcc0 0 .e .tcc, gp .a 15 |>.pwm .tc3 1 .e .tc,
    gp .a 20 |>.pwm .tcc0 2 .f .tcc, gp .a 21 |>.pwm .tcc0 3 .f .tcc, gp .a 6 |>.pwm .tcc1 0 .e .tcc, gp .a 7 |>.pwm .tcc1 1 .e .tcc,
    gp .a 18 |>.pwm .tc3 0 .e .tc, gp .a 16 |>.pwm .tcc2 0 .e .tcc, gp .a 19, gp .a 17 |>.pwm .tcc2 1 .e .tcc, gp .a 2 |>.ain 0, gp .b 8 |>.ain 2,
    gp .b 9 |>.ain 3, gp .a 4 |>.ain 4, gp .a 5 |>.ain 5, gp .b 2 |>.ain 10, gp .a 22, gp .a 23, gp .b 11, gp .b 10, gp .a 12, gp .a 1, gp .a 0]
  drv := false
  lamps := none

/-- `ports/metrom0/ao-pins.h:102-243`; lamps of the board on pin 22. -/
def metrom0 : Board where
  pins := [
    gp .a 11, gp .a 10, gp .a 14, gp .a 9 |>.pwm .tcc0 1 .e .tcc, gp .a 8 |>.pwm .tcc0 0 .e .tcc, gp .a 15 |>.pwm .tc3 1 .e .tc,
    gp .a 20 |>.pwm .tcc0 2 .f .tcc, gp .a 21 |>.pwm .tcc0 3 .f .tcc, gp .a 6 |>.pwm .tcc1 0 .e .tcc, gp .a 7 |>.pwm .tcc1 1 .e .tcc,
    gp .a 18 |>.pwm .tc3 0 .e .tc, gp .a 16 |>.pwm .tcc2 0 .e .tcc, gp .a 19, gp .a 17 |>.pwm .tcc2 1 .e .tcc, gp .a 2 |>.ain 0, gp .b 8 |>.ain 2,
    gp .b 9 |>.ain 3, gp .a 4 |>.ain 4, gp .a 5 |>.ain 5, gp .b 2 |>.ain 10, gp .a 22, gp .a 23, gp .a 30]
  drv := false
  lamps := some 22

/-- `ports/nano33iot/ao-pins.h:136-322`. -/
def nano33iot : Board where
  pins := [
    gp .a 11, gp .a 10, gp .a 14, gp .a 9 |>.pwm .tcc0 1 .e .tcc, gp .a 8 |>.pwm .tcc0 0 .e .tcc, gp .a 15 |>.pwm .tc3 1 .e .tc,
    gp .a 20 |>.pwm .tcc0 6 .f .tcc, gp .a 21, gp .a 6 |>.pwm .tcc1 0 .e .tcc, gp .a 7 |>.pwm .tcc1 1 .e .tcc, gp .a 18 |>.pwm .tc3 0 .e .tc,
    gp .a 16 |>.pwm .tcc2 0 .e .tcc, gp .a 19 |>.pwm .tcc0 3 .f .tcc, gp .a 17 |>.pwm .tcc2 1 .e .tcc, gp .a 2 |>.ain 0, gp .b 8 |>.ain 2,
    gp .b 9 |>.ain 3, gp .a 4 |>.ain 4, gp .a 5 |>.ain 5, gp .b 2 |>.ain 10, gp .a 22, gp .a 23, gp .a 12, gp .b 10, gp .b 11, gp .b 3, gp .a 27]
  drv := false
  lamps := none

/-- `ports/snekboard/ao-pins.h:127-247`; lamps of the board on pin 16. -/
def snekboard : Board where
  pins := [
    gp .b 8 |>.pwm .tc4 0 .e .tc |>.ain 2, gp .b 9 |>.pwm .tc4 1 .e .tc |>.ain 3, gp .a 6 |>.pwm .tcc1 0 .e .tcc |>.ain 6,
    gp .a 7 |>.pwm .tcc1 1 .e .tcc |>.ain 7, gp .a 8 |>.pwm .tcc0 0 .e .tcc |>.ain 16, gp .a 9 |>.pwm .tcc0 1 .e .tcc |>.ain 17,
    gp .a 10 |>.pwm .tcc0 2 .f .tcc |>.ain 18, gp .a 11 |>.pwm .tcc0 3 .f .tcc |>.ain 19, gp .a 12 |>.pwm .tcc2 0 .e .tcc, gp .a 16,
    gp .a 13 |>.pwm .tcc2 1 .e .tcc, gp .a 17, gp .a 18 |>.pwm .tc3 0 .e .tc, gp .a 20, gp .a 19 |>.pwm .tc3 1 .e .tc, gp .a 21, gp .b 11]
  drv := false
  lamps := some 16

/-- `ports/xiao/ao-pins.h:96-186`. -/
def xiao : Board where
  pins := [
    gp .a 2 |>.ain 0, gp .a 4 |>.pwm .tcc0 0 .e .tcc |>.ain 4, gp .a 10 |>.pwm .tcc0 2 .f .tcc |>.ain 18, gp .a 11 |>.pwm .tcc0 3 .f .tcc |>.ain 19,
    gp .a 8 |>.pwm .tcc1 0 .f .tcc |>.ain 16, gp .a 9 |>.pwm .tcc0 1 .e .tcc |>.ain 17, gp .b 8 |>.pwm .tc4 0 .e .tc |>.ain 2,
    gp .b 9 |>.pwm .tc4 1 .e .tc |>.ain 3, gp .a 7 |>.pwm .tcc1 1 .e .tcc |>.ain 7, gp .a 5 |>.ain 5, gp .a 6 |>.ain 6,
    gp .a 18 |>.pwm .tc3 0 .e .tc |>.inv, gp .a 19 |>.pwm .tc3 1 .e .tc |>.inv]
  drv := false
  lamps := none

/-- `ports/playground/ao-pins.h:91-282`; lamps of the board on pin 16. -/
def playground : Board where
  pins := [
    gp .a 2 |>.ain 0, gp .a 5 |>.pwm .tcc0 1 .e .tcc |>.ain 5, gp .a 6 |>.pwm .tcc1 0 .e .tcc |>.ain 6, gp .a 7 |>.pwm .tcc1 1 .e .tcc |>.ain 7,
    gp .b 3 |>.ain 11, gp .b 2 |>.ain 10, gp .b 9 |>.pwm .tc4 1 .e .tc |>.ain 3, gp .b 8 |>.pwm .tc4 0 .e .tc |>.ain 2, gp .a 11 |>.ain 19,
    gp .a 9 |>.ain 17, gp .a 28 |>.down, gp .a 14 |>.down, gp .a 15, gp .a 17 |>.pwm .tcc0 3 .f .tcc, gp .a 23, gp .a 12, gp .b 23, gp .a 13,
    gp .a 16, gp .a 21, gp .a 20, gp .b 22, gp .a 10, gp .a 8, gp .a 0, gp .a 1]
  drv := false
  lamps := some 16

/-- `ao_snek_pin[p]`. -/
def Board.pin (b : Board) (p : Nat) : Pin := b.pins.getD p { gpio := ⟨.a, 0⟩ }

/-- AO_SNEK_NUM_PIN. -/
def Board.num (b : Board) : Nat := b.pins.length

/-! ## The chip -/

/-- Registers DIR, OUT, PINCFG and PMUX of the ports, CC of the timers, DATA of the DAC. -/
structure Hw where
  dir : Gp → Bool
  out : Gp → Bool
  cfg : Gp → BitVec 8
  mux : Port → Nat → BitVec 8
  cc : Timer → Nat → Nat
  dac : Nat

/-- Change one entry. -/
def upd {α β : Type} [DecidableEq α] (f : α → β) (q : α) (v : β) : α → β := fun p => if p = q then v else f p

/-- `ao_gpio_set`, ao-arch-funcs.h:37-44 (OUTSET and OUTCLR change one bit of OUT). -/
def gpioSet (h : Hw) (g : Gp) (v : Bool) : Hw := { h with out := upd h.out g v }

/-- `samd21_port_dir_set`, samd21.h:670-677. -/
def dirSet (h : Hw) (g : Gp) (v : Bool) : Hw := { h with dir := upd h.dir g v }

/-- `samd21_port_pincfg_set`, samd21.h:679-683. -/
def cfgSet (h : Hw) (g : Gp) (mask v : BitVec 8) : Hw := { h with cfg := upd h.cfg g ((h.cfg g &&& ~~~ mask) ||| v) }

/-- `samd21_port_pmux_set`, samd21.h:691-702. -/
def muxSet (h : Hw) (g : Gp) (func : BitVec 8) : Hw :=
  let bit := (g.bit % 2) * 4
  let mask := 0xf#8 <<< bit
  let value := (h.mux g.port (g.bit / 2) &&& ~~~ mask) ||| (func <<< bit)
  cfgSet { h with mux := fun p i => if p = g.port ∧ i = g.bit / 2 then value else h.mux p i } g 0x01 0x01

/-- `ao_tcc_set` and `ao_tc_set`, ao-tcc-samd21.c:24-28 and ao-tc-samd21.c:24-28. -/
def ccSet (h : Hw) (t : Timer) (ch v : Nat) : Hw := { h with cc := fun t' c => if t' = t ∧ c = ch then v else h.cc t' c }

/-- DRVSTR, PULLEN and INEN. -/
def plain : BitVec 8 := 0x46

/-- The channel used, ao-snek.c:28-35. -/
def Pin.chan (x : Pin) : Nat := match x.dev with | .tcc => x.ch % 4 | .tc => x.ch

/-- SAMD21_PORT_PMUX_FUNC_E and _F, samd21.h:661-662. -/
def Func.code : Func → BitVec 8 | .e => 4 | .f => 5

/-- `ao_snek_set_pwm`, ao-snek.c:25-51. -/
def setPwm (x : Pin) (t : Timer) (v : Nat) (h : Hw) : Hw := cfgSet (muxSet (ccSet h t x.chan v) x.gpio x.func.code) x.gpio plain 0

/-- `ao_snek_clr_pmux`, ao-snek.c:53-57, which is also `ao_snek_clr_pwm` and `ao_snek_clr_adc`, lines 59-63, 99-103. -/
def clrPmux (x : Pin) (h : Hw) : Hw := cfgSet h x.gpio 0x01 0

/-- `ao_snek_set_dac`, ao-snek.c:65-77. -/
def setDac (x : Pin) (v : Nat) (h : Hw) : Hw := cfgSet (muxSet { h with dac := v } x.gpio 1) x.gpio plain 0

/-- `ao_snek_clr_dac`, ao-snek.c:79-84. -/
def clrDac (x : Pin) (h : Hw) : Hw := clrPmux x { h with dac := 0 }

/-- `ao_snek_set_adc`, ao-snek.c:86-97. -/
def setAdc (x : Pin) (h : Hw) : Hw := cfgSet (muxSet h x.gpio 1) x.gpio plain 0x02

/-- `ao_enable_output`, ao-arch-funcs.h:61-74. -/
def enableOutput (x : Pin) (v : Bool) (h : Hw) : Hw := cfgSet (dirSet (gpioSet h x.gpio v) x.gpio true) x.gpio plain 0

/-- AO_MODE_PULL_NONE, _UP, _DOWN, ao-arch-funcs.h:22-24. -/
inductive Pull | none | up | down
  deriving DecidableEq, Repr

/-- `ao_enable_input`, ao-arch-funcs.h:76-101. -/
def enableInput (x : Pin) (m : Pull) (h : Hw) : Hw :=
  let h := dirSet h x.gpio false
  match m with
  | .none => cfgSet h x.gpio 0x47 0x02
  | m => cfgSet (gpioSet h x.gpio (m = .up)) x.gpio 0x47 0x06

/-! ## The functions -/

/-- The static variables of snek-gpio.c:19-29 (`on_pins` as a function) and the chip. -/
structure St where
  powerPin : Nat
  dirPin : Nat
  power : Nat → Nat
  pull : Nat → Pull
  on : Nat → Bool
  hw : Hw

/-- SNEK_PWM_MAX, ao-arch.h:117-118. -/
def pwmMax : Nat := 65535

/-- `has_dac`, snek-gpio.c:349-353. -/
def Pin.hasDac (x : Pin) : Bool := decide (x.gpio = ⟨.a, 2⟩)

/-- `ao_snek_port_set`, snek-gpio.c:323-329. -/
def portSet (x : Pin) (v : Nat) (h : Hw) : Hw := gpioSet h x.gpio ((v != 0) != x.invert)

/-- `ao_snek_port_set_pwm`, snek-gpio.c:297-303. -/
def portSetPwm (x : Pin) (t : Timer) (v : Nat) (h : Hw) : Hw := setPwm x t (if x.invert then pwmMax - v else v) h

/-- `_set_out`, snek-gpio.c:393-414. -/
def rawOut (x : Pin) (p : Nat) (h : Hw) : Hw :=
  if x.hasDac then setDac x p h
  else match x.timer with
    | some t => if 0 < p ∧ p < pwmMax then portSetPwm x t p h else portSet x p (clrPmux x h)
    | none => portSet x p h

/-- `set_in`, snek-gpio.c:416-423. -/
def setIn (x : Pin) (h : Hw) : Hw :=
  if x.timer.isSome then clrPmux x h else if x.hasDac then clrDac x h else h

/-- The motors of `set_out`, IS_DRV8833_PWM and so on, ports/crickit/ao-pins.h:120-124: power pin and direction pin for either. -/
def Board.motor (b : Board) (p : Nat) : Option (Nat × Nat) :=
  if b.drv then
    if p = 4 ∨ p = 6 then some (p, p + 1) else if p = 5 ∨ p = 7 then some (p - 1, p) else none
  else none

/-- What a pin is to have: its power if it is on, snek-gpio.c:443-444, 453-454, 466-467. -/
def St.want (s : St) (p : Nat) : Nat := if s.on p then s.power p else 0

/-- `set_out` of a motor, up to the first of the two calls of `_set_out`, snek-gpio.c:443-449. -/
def motorFirst (b : Board) (pwm dir : Nat) (s : St) : Hw :=
  if s.on dir then rawOut (b.pin pwm) 0 s.hw else rawOut (b.pin dir) 0 s.hw

/-- `set_out`, snek-gpio.c:425-470. -/
def setOut (b : Board) (pin : Nat) (s : St) : St :=
  match b.motor pin with
  | some (pwm, dir) => { s with hw := rawOut (b.pin (if s.on dir then dir else pwm)) (s.want pwm) (motorFirst b pwm dir s) }
  | none => { s with hw := rawOut (b.pin pin) (s.want pin) s.hw }

/-- The first half of `set_dir(pin, 1)`, snek-gpio.c:529-532. -/
def enableOut (b : Board) (pin : Nat) (s : St) : St :=
  let h := if (b.pin pin).adc.isSome then clrPmux (b.pin pin) s.hw else s.hw
  { s with hw := enableOutput (b.pin pin) (s.on pin && s.power pin != 0) h }

/-- `set_dir(pin, 1)`, snek-gpio.c:526-533. -/
def setDirOut (b : Board) (pin : Nat) (s : St) : St := setOut b pin (enableOut b pin s)

/-- `set_dir(pin, 0)`, snek-gpio.c:534-557. -/
def setDirIn (b : Board) (pin : Nat) (s : St) : St :=
  let x := b.pin pin
  let h := setIn x s.hw
  let h := if x.adc.isSome then (if s.pull pin = .none then setAdc x h else clrPmux x h) else h
  { s with hw := enableInput x (s.pull pin) h }

/-- One turn of the loop of `ao_snek_port_init`, snek-gpio.c:254-255. -/
def initPin (x : Pin) (h : Hw) : Hw := enableInput x .none (clrPmux x h)

/-- The static variables at their initial values (snek-gpio.c:19-29), and the first loop of `ao_snek_port_init`, snek-gpio.c:254-266: the chip may have any
state before. -/
def ready (b : Board) (h : Hw) : St :=
  { powerPin := 0, dirPin := 0, power := fun _ => 65535, on := fun _ => false,
    pull := fun p => if (b.pin p).pullDown then .down else .none,
    hw := b.pins.foldl (fun h x => initPin x h) h }

/-- `ao_snek_port_init`, snek-gpio.c:250-289, after power on or `reset()`. What is sent to the lamps of the board is left out. -/
def init (b : Board) (h : Hw) : St :=
  match b.lamps with
  | some p => setDirIn b p (setDirOut b p (ready b h))
  | none => ready b h

/-- The conversion of `setpower`, snek-gpio.c:593-596. -/
def powerWord (p : BitVec 32) : Option Nat :=
  let p := if fltF p 0 then 0 else p
  let p := if fltF 0x3f800000 p then 0x3f800000 else p
  let f := fadd (fmul p 0x477fff00) 0x3f000000
  if isFin f ∧ 0 ≤ ftrunc f ∧ ftrunc f < 65536 then some (ftrunc f).toNat else none

/-- Calls with valid arguments (others are errors: `snek_poly_get_pin`, snek-gpio.c:558-565). `onfor` is `on`, sleep, `off`. -/
inductive Call
  | talkto (p d : Nat)
  | setpower (v : BitVec 32)
  | setleft | setright | on | off
  | pullnone (p : Nat) | pullup (p : Nat) | pulldown (p : Nat)
  | read (p : Nat)
  | stopall
  deriving DecidableEq

/-- `set_on` and `set_off`, snek-gpio.c:381-391. -/
def St.turn (s : St) (p : Nat) (v : Bool) : St := { s with on := upd s.on p v }

/-- The loop of `stopall`, snek-gpio.c:685-689, from pin `p` on, `n` pins. -/
def stopFrom (b : Board) : Nat → Nat → St → St
  | 0, _, s => s
  | n + 1, p, s => stopFrom b n (p + 1) (if s.on p then setOut b p (s.turn p false) else s)

/-- `talkto`, snek-gpio.c:567-588. -/
def talkto (b : Board) (p d : Nat) (s : St) : St :=
  let s := setDirOut b p s
  let s := if p ≠ d then setDirOut b d s else s
  { s with powerPin := p, dirPin := d }

/-- The functions, snek-gpio.c:567-690. -/
def call (b : Board) : Call → St → Option St
  | .talkto p d, s => some (talkto b p d s)
  | .setpower v, s => do
    let w ← powerWord v
    pure (setOut b s.powerPin { s with power := upd s.power s.powerPin w })
  | .setleft, s => some (setOut b s.dirPin (s.turn s.dirPin true))
  | .setright, s => some (setOut b s.dirPin (s.turn s.dirPin false))
  | .on, s => some (setOut b s.powerPin (s.turn s.powerPin true))
  | .off, s => some (setOut b s.powerPin (s.turn s.powerPin false))
  | .pullnone p, s => some { s with pull := upd s.pull p .none }
  | .pullup p, s => some { s with pull := upd s.pull p .up }
  | .pulldown p, s => some { s with pull := upd s.pull p .down }
  | .read p, s => some (setDirIn b p s)
  | .stopall, s => some (stopFrom b b.num 0 s)

/-- The value `read` returns, snek-gpio.c:673-678: the bit of the pin, or of the converter's 12 bits `adc / 4095`. -/
def readValue (b : Board) (s : St) (p : Nat) (pin : Bool) (adc : Nat) : BitVec 32 :=
  if (b.pin p).adc.isSome ∧ s.pull p = .none then fdiv (intToF adc) (intToF 4095) else intToF (if pin then 1 else 0)

/-- A sequence of calls. -/
def calls (b : Board) : List Call → St → Option St
  | [], s => some s
  | c :: l, s => (call b c s).bind (calls b l)

end Snek.Pins
