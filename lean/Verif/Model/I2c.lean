import Verif.Model.F32
/-!
# The I2C bus

`i2c.put` and `i2c.get` (snek-i2c.c) and the accelerometer (snek-lis3dh.c) over the two-wire interface of the ATmega
(chips/atmega/snek-atmega-i2c.c), with devices on the bus that have registers: a device that hears its address after a START takes the next byte as the
number of a register, further ones as what to put there; addressed for reading, it sends from the register it is at. After each
byte it goes on to the next register, or stays; `next` is any function.

`env` is what the devices do by themselves: before every operation on the bus the registers of each device can change.

Simplifications: the operations of the interface come to an end (a bus that is held low makes `snek_i2c_cr` wait for ever); what is read where no
device sends is `junk`; the speed and the pull-ups are not modelled; the arguments are the integers that `snek_poly_get_soffset` makes of
numbers in its range; for `accel` the memory for the result is there.
-/
namespace Snek.I2c

/-- A device on the bus: not code of the program, but what is outside. -/
structure Dev where
  addr : Nat
  regs : UInt8 → UInt8
  ptr : UInt8
  next : UInt8 → UInt8

/-- What the bus expects: nothing, an address, then from or for the device at an address a register number, data, or reading; or nobody answers. -/
inductive Phase where
  | idle | addr | reg (a : Nat) | data (a : Nat) | send (a : Nat) | nobody
  deriving DecidableEq, Repr

structure Bus where
  devs : List Dev
  phase : Phase
  time : Nat

variable (env : Nat → Dev → UInt8 → UInt8) (junk : UInt8)

/-- The devices by themselves. -/
def tick (b : Bus) : Bus := { b with devs := b.devs.map fun d => { d with regs := env b.time d }, time := b.time + 1 }

/-- Something happens to the device at an address. -/
def on (a : Nat) (f : Dev → Dev) (b : Bus) : Bus := { b with devs := b.devs.map fun d => if d.addr = a then f d else d }

/-- `snek_i2c_cr` with TWSTA, chips/atmega/snek-atmega-i2c.c:74: a START. -/
def cond (b : Bus) : Bus := { tick env b with phase := .addr }

/-- `snek_i2c_write`, chips/atmega/snek-atmega-i2c.c:46-51. Where a device is to send, the interface takes a byte from it and refuses more. -/
def write (b : Bus) (v : UInt8) : Bus :=
  let b := tick env b
  match b.phase with
  | .addr =>
    let a := v.toNat / 2
    if b.devs.any (fun d => d.addr = a) then { b with phase := if v.toNat % 2 = 0 then .reg a else .send a } else { b with phase := .nobody }
  | .reg a => { on a (fun d => { d with ptr := v }) b with phase := .data a }
  | .data a => on a (fun d => { d with regs := fun r => if r = d.ptr then v else d.regs r, ptr := d.next d.ptr }) b
  | .send a => { on a (fun d => { d with ptr := d.next d.ptr }) b with phase := .nobody }
  | .nobody => b
  | .idle => b

/-- `snek_i2c_start`, chips/atmega/snek-atmega-i2c.c:55-76. -/
def start (b : Bus) (v : UInt8) : Bus := write env (cond env b) v

/-- `snek_i2c_read_nak`, chips/atmega/snek-atmega-i2c.c:39-44. -/
def readNak (b : Bus) : UInt8 × Bus :=
  let b := tick env b
  match b.phase with
  | .send a =>
    match b.devs.find? (fun d => d.addr = a) with
    | some d => (d.regs d.ptr, { on a (fun d => { d with ptr := d.next d.ptr }) b with phase := .nobody })
    | none => (junk, b)
  | _ => (junk, b)

/-- `snek_i2c_stop`, chips/atmega/snek-atmega-i2c.c:78-82. -/
def stop (b : Bus) : Bus := { tick env b with phase := .idle }

/-- `snek_i2c_put`, chips/atmega/snek-atmega-i2c.c:84-91. SNEK_I2C_WRITE is 0 (snek-i2c.h:23). -/
def put (b : Bus) (addr reg val : UInt8) : Bus :=
  stop env (write env (write env (start env b (addr ||| 0)) reg) val)

/-- `snek_i2c_get`, chips/atmega/snek-atmega-i2c.c:93-103. SNEK_I2C_READ is 1 (snek-i2c.h:22). -/
def get (b : Bus) (addr reg : UInt8) : UInt8 × Bus :=
  let b := start env b (addr ||| 0)
  let b := write env b reg
  let b := start env b (addr ||| 1)
  let r := readNak env junk b
  (r.1, stop env r.2)

/-- Conversion of an integer to `uint8_t`. -/
def byte (i : Int) : UInt8 := UInt8.ofNat (i % 256).toNat

/-- `snek_builtin_i2c_put`, snek-i2c.c:22-34. -/
def builtinPut (b : Bus) (addr reg val : Int) : Bus := put env b (byte addr) (byte reg) (byte val)

/-- `snek_builtin_i2c_get`, snek-i2c.c:36-47. -/
def builtinGet (b : Bus) (addr reg : Int) : Nat × Bus :=
  let r := get env junk b (byte addr) (byte reg)
  (r.1.toNat, r.2)

/-- The `int16_t` of a low and a high byte, snek-lis3dh.c:86-92. -/
def int16 (l h : UInt8) : Int :=
  let u := l.toNat + 256 * h.toNat
  if u < 32768 then u else u - 65536

/-- `(float) u.i / 16000.0f`, snek-lis3dh.c:95. -/
def scale (i : Int) : BitVec 32 := fdiv (intToF i) (intToF 16000)

/-- One turn of the loop of `snek_builtin_accel`, snek-lis3dh.c:85-96. -/
def axis (b : Bus) (a : UInt8) : BitVec 32 × Bus :=
  let l := get env junk b 0x32 (0x28 + a + 0)
  let h := get env junk l.2 0x32 (0x28 + a + 1)
  (scale (int16 l.1 h.1), h.2)

/-- `snek_builtin_accel`, snek-lis3dh.c:65-98; `been` is `been_here`. The sleep is a tick. -/
def accel (been : Bool) (b : Bus) : (BitVec 32 × BitVec 32 × BitVec 32) × Bus :=
  let b := if been then b else tick env (put env b 0x32 0x20 0x57)
  let x := axis env junk b 0
  let y := axis env junk x.2 2
  let z := axis env junk y.2 4
  ((x.1, y.1, z.1), z.2)

end Snek.I2c
