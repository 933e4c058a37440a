import Verif.Model.F32
/-!
# The clock of the AVR ports

Models `snek_ticks`, `snek_sec_to_ticks`, `time.sleep` and `time.monotonic` of `chips/avr/ao-snek-avr.c` (32u4) and
`chips/atmega/snek-atmega-time.c` (328P, 1284, 2560, 4809), with the counter and the overflow interrupt they race with.

The program is a sequence of machine instructions; an interrupt handler runs between two of them when interrupts are enabled and
one is pending. As on every AVR, the instruction after `sei` and the first instruction after a handler returns are executed before
the next handler may run; of several pending interrupts the one with the lower vector number runs first.

Simplifications: a handler is one step (time may pass before and after it); a handler other than the clock's does not touch the
clock; the four byte loads of `timer_tocks` are one step, as they run with interrupts disabled.
-/
namespace Snek.Time

/-- What differs between the ports. -/
structure Port where
  /-- bits of the counter: `8 * sizeof (TICK_TYPE)`, snek-atmega-time.c:17-29 -/
  w : Nat
  /-- `CLOCK_SHIFT`, snek-atmega-time.c:21 and 27 -/
  shift : Nat
  /-- the clock's interrupt has a lower vector number than the others that are used -/
  first : Bool
  deriving DecidableEq, Repr

/-- The next machine instruction of `snek_ticks` (ao-snek-avr.c:449-465, snek-atmega-time.c:49-68). -/
inductive Pc
  | cli1 | before | sei1 | count | cli2 | after | sei2 | test | done
  deriving DecidableEq, Repr

/-- The processor, the counter and the variables. -/
structure Cpu where
  /-- increments of the hardware counter since the start -/
  t : Nat
  /-- `timer_tocks` (`timer0_tocks`) -/
  tocks : BitVec 32
  /-- the overflow interrupt is pending -/
  ovf : Bool
  /-- another interrupt is pending -/
  other : Bool
  /-- interrupts are enabled -/
  ie : Bool
  /-- the next instruction is executed before any handler -/
  shadow : Bool
  pc : Pc
  /-- `tocks_before`, `ticks`, `tocks_after` -/
  b : BitVec 32
  c : Nat
  a : BitVec 32
  /-- when the counter was last read (not a variable of the program) -/
  tr : Nat
  deriving DecidableEq, Repr

/-- The instruction at `pc`. -/
def instr (P : Port) (s : Cpu) : Cpu :=
  match s.pc with
  | .cli1 => { s with ie := false, shadow := false, pc := .before }
  | .before => { s with b := s.tocks, shadow := false, pc := .sei1 }
  | .sei1 => { s with ie := true, shadow := true, pc := .count }
  | .count => { s with c := s.t % 2 ^ P.w, tr := s.t, shadow := false, pc := .cli2 }
  | .cli2 => { s with ie := false, shadow := false, pc := .after }
  | .after => { s with a := s.tocks, shadow := false, pc := .sei2 }
  | .sei2 => { s with ie := true, shadow := true, pc := .test }
  | .test => { s with shadow := false, pc := if s.b != s.a then .cli1 else .done }
  | .done => s

/-- One step of the machine. -/
inductive Step (P : Port) : Cpu → Cpu → Prop
  /-- The counter advances. At an overflow the interrupt becomes pending; no two overflows go by before the handler runs. -/
  | pass (s : Cpu) (t' : Nat) : s.t ≤ t' → t' / 2 ^ P.w ≤ s.t / 2 ^ P.w + (if s.ovf then 0 else 1) →
      Step P s { s with t := t', ovf := s.ovf || decide (s.t / 2 ^ P.w < t' / 2 ^ P.w) }
  /-- Another interrupt is raised. -/
  | raise (s : Cpu) : Step P s { s with other := true }
  /-- `ISR(TIMER0_OVF_vect)`, ao-snek-avr.c:89-92; `ISR(timer_vect)`, snek-atmega-time.c:43-47. -/
  | tick (s : Cpu) : s.ie = true → s.shadow = false → s.ovf = true → (P.first = true ∨ s.other = false) →
      Step P s { s with tocks := s.tocks + 1, ovf := false, shadow := true }
  /-- Another handler. -/
  | handle (s : Cpu) : s.ie = true → s.shadow = false → s.other = true → (P.first = true → s.ovf = false) →
      Step P s { s with other := false, shadow := true }
  /-- An instruction of `snek_ticks`. -/
  | main (s : Cpu) : (s.ie = true → s.shadow = false → s.ovf = false ∧ s.other = false) → s.pc ≠ .done → Step P s (instr P s)
  /-- Some other instruction the compiler put there (moving values between registers). -/
  | nop (s : Cpu) : (s.ie = true → s.shadow = false → s.ovf = false ∧ s.other = false) → Step P s { s with shadow := false }

/-- Any number of steps. -/
inductive Steps (P : Port) : Cpu → Cpu → Prop
  | refl (s : Cpu) : Steps P s s
  | step {s s' s'' : Cpu} : Steps P s s' → Step P s' s'' → Steps P s s''

/-- The returned value, ao-snek-avr.c:464, snek-atmega-time.c:67. -/
def result (P : Port) (s : Cpu) : BitVec 32 := (s.b <<< (P.w - P.shift)) ||| BitVec.ofNat 32 (s.c / 2 ^ P.shift)

/-- A call of `snek_ticks` from `s` returns `r` in the state `s'`. -/
def Ticks (P : Port) (s s' : Cpu) (r : BitVec 32) : Prop := Steps P { s with pc := .cli1 } s' ∧ s'.pc = .done ∧ r = result P s'

/-- The loop of `time.sleep`, ao-snek-avr.c:477-479, snek-atmega-time.c:80-82. The last argument tells whether `snek_abort` ended it. -/
inductive Loop (P : Port) (th : BitVec 32) : Cpu → Cpu → Bool → Prop
  | abort (s : Cpu) : Loop P th s s true
  | stop {s s' : Cpu} {r : BitVec 32} : Ticks P s s' r → ¬ 0 < (th - r).toInt → Loop P th s s' false
  | again {s s' s'' : Cpu} {r : BitVec 32} {ab : Bool} : Ticks P s s' r → 0 < (th - r).toInt → Loop P th s' s'' ab → Loop P th s s'' ab

/-- `time.sleep` with the number of ticks computed, ao-snek-avr.c:474-481, snek-atmega-time.c:76-84. -/
inductive Sleep (P : Port) (n : BitVec 32) : Cpu → Cpu → Bool → Prop
  | mk {s s' s'' : Cpu} {r : BitVec 32} {ab : Bool} : Ticks P s s' r → Loop P (r + n) s' s'' ab → Sleep P n s s'' ab

/-- `F_CPU / 64.0f` as a `float`: `ticksPerSecond 16000000` is 250000.0. -/
def ticksPerSecond (fcpu : Nat) : BitVec 32 := fdiv (intToF fcpu) (intToF 64)

/-- `64.0f / F_CPU` as a `float`. -/
def secondsPerTick (fcpu : Nat) : BitVec 32 := fdiv (intToF 64) (intToF fcpu)

/-- `snek_sec_to_ticks`, ao-snek-avr.c:467-471, snek-atmega-time.c:70-74. `none` is undefined behaviour. -/
def secToTicks (fcpu : Nat) (sec : BitVec 32) : Option (BitVec 32) :=
  let f := fadd (fmul sec (ticksPerSecond fcpu)) 0x3f000000
  if isFin f ∧ 0 ≤ ftrunc f ∧ ftrunc f < 2 ^ 32 then some (BitVec.ofInt 32 (ftrunc f)) else none

/-- `time.monotonic` from the reading, ao-snek-avr.c:484-487, snek-atmega-time.c:86-90. -/
def monotonic (fcpu : Nat) (r : BitVec 32) : BitVec 32 := fmul (intToF r.toNat) (secondsPerTick fcpu)

/-- `ao_time_ns`, chips/samd21/ao-timer.c:32-46, when no interrupt comes in between, `t` counts of the system timer after the
start. The timer counts down from `SYSTICK_RELOAD` (`hz / hertz - 1`, line 73) and `ao_tick_count` counts the reloads. -/
def samdNs (hz hertz t : Nat) : Nat :=
  let cvr := hz / hertz - 1 - t % (hz / hertz)
  t / (hz / hertz) * (1000000000 / hertz) + cvr * (1000000000 / hz)

end Snek.Time
