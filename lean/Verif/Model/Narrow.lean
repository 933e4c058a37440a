/-!
# Pins of the narrow 1284

Models the pin functions of `ports/narrow-1284/snek-narrow-1284.c`. `int` has 16 bits on this chip. `1 << p` for `p` above 15 is undefined in C; it is
taken to be 0 here, which is what shifting one place `p` times gives. Simplifications: arguments are those of calls without an error, that is
pins below 32 (:239-246) and the byte `setpower` converts to (:317-320); the timers' compare registers are left out, and of their control
registers only whether the bit of a pin is set (`*tcc_reg(pin)` and `tcc_val(pin)`, :188-219, differ from pin to pin; which register it is
is `tccReg`).
-/
namespace Snek.Narrow

/-- `NUM_PIN`, snek-narrow-1284.c:17. -/
def numPin : Nat := 32

inductive Port
  | a | b | c | d
  deriving DecidableEq, Repr

/-- Static variables, snek-narrow-1284.c:20-29, and registers DDRx and PORTx; `tcc` is the timer's bit for a pin. -/
structure St where
  powerPin : Nat
  dirPin : Nat
  power : Nat → BitVec 8
  onPins : BitVec 32
  pullPins : BitVec 32
  ddr : Port → BitVec 8
  port : Port → BitVec 8
  tcc : Nat → Bool

/-- Change one entry: an assignment to `power[p]`, snek-narrow-1284.c:320, or to one register, :229-235, 302-310. -/
def put {α β : Type} [DecidableEq α] (f : α → β) (q : α) (v : β) : α → β := fun p => if p = q then v else f p

/-- `ddr_reg`, snek-narrow-1284.c:106-116. -/
def ddrReg (p : Nat) : Port := if p < 8 then .b else if p < 16 then .d else if p < 24 then .c else .a

/-- `pin_reg`, snek-narrow-1284.c:118-126. -/
def pinReg (p : Nat) : Port := if p < 8 then .b else if p < 16 then .d else .c

/-- `port_reg`, snek-narrow-1284.c:128-138. -/
def portReg (p : Nat) : Port := if p < 8 then .b else if p < 16 then .d else if p < 24 then .c else .a

/-- `bit`, snek-narrow-1284.c:140-144. -/
def bit (p : Nat) : BitVec 8 := 1#8 <<< (p % 8)

/-- `1 << p` as an `int`, converted to `uint32_t`: snek-narrow-1284.c:161, 365, 374. -/
def one (p : Nat) : BitVec 32 := (1#16 <<< p).signExtend 32

/-- `is_pull`, snek-narrow-1284.c:146-150. -/
def isPull (s : St) (p : Nat) : Bool := s.pullPins.getLsbD p

/-- `has_pwm`, snek-narrow-1284.c:152-162. -/
def hasPwm (p : Nat) : Bool :=
  ((one 3 ||| one 4 ||| one 6 ||| one 7 ||| one 12 ||| one 13 ||| one 14 ||| one 15) &&& one (p % 32)) != 0

/-- `tcc_reg`, snek-narrow-1284.c:188-202: the timer, and whether it is its register A (else B). -/
def tccReg : Nat → Option (Nat × Bool)
  | 3 => some (0, true) | 4 => some (0, false) | 6 => some (3, true) | 7 => some (3, false)
  | 12 => some (1, false) | 13 => some (1, true) | 14 => some (2, false) | 15 => some (2, true)
  | _ => none

/-- `set_dir`, snek-narrow-1284.c:221-237. -/
def setDir (p : Nat) (d : Bool) (s : St) : St :=
  if d then { s with ddr := put s.ddr (ddrReg p) (s.ddr (ddrReg p) ||| bit p) }
  else
    { s with
      ddr := put s.ddr (ddrReg p) (s.ddr (ddrReg p) &&& ~~~ bit p)
      port := put s.port (portReg p) (if isPull s p then s.port (portReg p) ||| bit p else s.port (portReg p) &&& ~~~ bit p) }

/-- `talkto`, snek-narrow-1284.c:248-268. -/
def talkto (p d : Nat) (s : St) : St := { setDir d true (setDir p true s) with powerPin := p, dirPin := d }

/-- `is_on`, snek-narrow-1284.c:270-274. -/
def isOn (s : St) (p : Nat) : Bool := s.onPins.getLsbD p

/-- `set_on`, snek-narrow-1284.c:276-280. -/
def setOn (p : Nat) (s : St) : St := { s with onPins := s.onPins ||| 1#32 <<< p }

/-- `set_off`, snek-narrow-1284.c:282-286. -/
def setOff (p : Nat) (s : St) : St := { s with onPins := s.onPins &&& ~~~ (1#32 <<< p) }

/-- The end of `set_out`, snek-narrow-1284.c:307-310. -/
def setPort (p : Nat) (v : Bool) (s : St) : St :=
  { s with port := put s.port (portReg p) (if v then s.port (portReg p) ||| bit p else s.port (portReg p) &&& ~~~ bit p) }

/-- `set_out`, snek-narrow-1284.c:288-312. -/
def setOut (p : Nat) (s : St) : St :=
  let v := if isOn s p then s.power p else 0
  if hasPwm p then
    if 0 < v ∧ v < 255 then { s with tcc := put s.tcc p true }
    else setPort p (v != 0) { s with tcc := put s.tcc p false }
  else setPort p (v != 0) s

/-- `setpower`, snek-narrow-1284.c:314-322. -/
def setpower (v : BitVec 8) (s : St) : St := setOut s.powerPin { s with power := put s.power s.powerPin v }

/-- The loop of `stopall`, snek-narrow-1284.c:404-414, from pin `p` for `n` pins. -/
def stopFrom : Nat → Nat → St → St
  | _, 0, s => s
  | p, n + 1, s => stopFrom (p + 1) n (if isOn s p then setOut p (setOff p s) else s)

/-- Calls a program can make, the builtins of snek-narrow-1284.c:248-414 (`onfor` is `on`, `time.sleep`, `off`, :352-358). -/
inductive Call
  | talkto (p d : Nat)
  | setpower (v : BitVec 8)
  | on | off
  | setleft | setright
  | pullnone (p : Nat)
  | pullup (p : Nat)
  | read (p : Nat)
  | stopall
  deriving DecidableEq, Repr

/-- One call: `setpower`, `setleft`, `setright`, `on`, `off`, `pullnone`, `pullup`, snek-narrow-1284.c:314-376; `read` up to the reading, :383-386. -/
def step (s : St) : Call → St
  | .talkto p d => talkto p d s
  | .setpower v => setpower v s
  | .on => setOut s.powerPin (setOn s.powerPin s)
  | .off => setOut s.powerPin (setOff s.powerPin s)
  | .setleft => setOut s.dirPin (setOn s.dirPin s)
  | .setright => setOut s.dirPin (setOff s.dirPin s)
  | .pullnone p => { s with pullPins := s.pullPins &&& ~~~ one p }
  | .pullup p => { s with pullPins := s.pullPins ||| one p }
  | .read p => setDir p false s
  | .stopall => stopFrom 0 numPin s

/-- Where `read` takes its value from, snek-narrow-1284.c:388-401: the converter's input, or a bit of PINx. -/
inductive Source
  | analog (input : Nat)
  | digital (port : Port) (bit : Nat)
  deriving DecidableEq, Repr

/-- `read` after `set_dir`, snek-narrow-1284.c:388-401. -/
def source (s : St) (p : Nat) : Source := if 24 ≤ p ∧ !isPull s p then .analog ((p - 24) % 8) else .digital (pinReg p) (p % 8)

/-- After a reset of the chip and `port_init`, snek-narrow-1284.c:20-29, 78. -/
def St.init : St := ⟨0, 0, fun _ => 255, 0, 0x00ffffff, fun _ => 0, fun _ => 0, fun _ => false⟩

end Snek.Narrow
