import Verif.Model.I2c
import Verif.Spec.Baro
/-!
# The barometer

`baro` (snek-bmp280.c) over the two-wire interface of `Model/I2c`.

Simplifications: signed arithmetic wraps around at 32 bits (the C standard leaves overflow open); `>>` of negative numbers rounds down, as in
all compilers that are used. The branches that the preprocessor leaves out (`#if 0` at 102, the `#else` at 174) are not modelled.
-/
namespace Snek.Baro
open Snek.I2c (Dev Bus)
open Spec.Baro (Cal)

variable (env : Nat → Dev → UInt8 → UInt8) (junk : UInt8)

/-- Conversion to `int32_t` and `uint32_t`. -/
def s32 (x : Int) : Int := (x + 2 ^ 31) % 2 ^ 32 - 2 ^ 31
def u32 (x : Int) : Int := x % 2 ^ 32

/-- `get8`, snek-bmp280.c:43-47, again and again: the registers of a list. -/
def reads : List UInt8 → Bus → List UInt8 × Bus
  | [], b => ([], b)
  | r :: l, b =>
    let g := I2c.get env junk b 0xee r
    let m := reads l g.2
    (g.1 :: m.1, m.2)

/-- `sample`, snek-bmp280.c:49-59. -/
def sample (b : Bus) (reg : UInt8) : Int × Bus :=
  let m := reads env junk [reg, reg + 1, reg + 2] b
  let u : Nat := (m.1.getD 0 0).toNat * 2 ^ 16 + (m.1.getD 1 0).toNat * 2 ^ 8 + (m.1.getD 2 0).toNat
  ((u : Int) / 2 ^ 4, m.2)

/-- The words of `rom`, snek-bmp280.c:61-74, in the bytes that were read. -/
def word (l : List UInt8) (i : Nat) : Int := (l.getD i 0).toNat + 256 * (l.getD (i + 1) 0).toNat
def sword (l : List UInt8) (i : Nat) : Int := if word l i < 32768 then word l i else word l i - 65536

def rom (l : List UInt8) : Cal where
  t1 := word l 0
  t2 := sword l 2
  t3 := sword l 4
  p1 := word l 6
  p2 := sword l 8
  p3 := sword l 10
  p4 := sword l 12
  p5 := sword l 14
  p6 := sword l 16
  p7 := sword l 18
  p8 := sword l 20
  p9 := sword l 22

/-- The temperature, snek-bmp280.c:137-145. -/
def tFine (c : Cal) (adcT : Int) : Int :=
  let var1 := s32 (s32 (adcT / 2 ^ 3 - s32 (c.t1 * 2)) * c.t2) / 2 ^ 11
  let d := s32 (adcT / 2 ^ 4 - c.t1)
  let var2 := s32 (s32 (d * d) / 2 ^ 12 * c.t3) / 2 ^ 14
  s32 (var1 + var2)

/-- The pressure, snek-bmp280.c:150-173. `p` is a `uint32_t`, so that the products with `dig_P9` and `dig_P8` are unsigned. -/
def press (c : Cal) (t adcP : Int) : Int :=
  let var1 := s32 (t / 2 - 64000)
  let var2 := s32 (s32 (var1 / 4 * (var1 / 4)) / 2 ^ 11 * c.p6)
  let var2 := s32 (var2 + s32 (s32 (var1 * c.p5) * 2))
  let var2 := s32 (var2 / 4 + s32 (c.p4 * 2 ^ 16))
  let var1 := s32 (s32 (c.p3 * (s32 (var1 / 4 * (var1 / 4)) / 2 ^ 13)) / 8 + s32 (c.p2 * var1) / 2) / 2 ^ 18
  let var1 := s32 (s32 (32768 + var1) * c.p1) / 2 ^ 15
  if var1 = 0 then 0
  else
    let p := u32 (u32 (u32 (s32 (1048576 - adcP)) - var2 / 2 ^ 12) * 3125)
    let p := if p < 0x80000000 then u32 (p * 2) / u32 var1 else u32 (p / u32 var1 * 2)
    let var1 := s32 (u32 (u32 c.p9 * (u32 (p / 8 * (p / 8)) / 2 ^ 13)) / 2 ^ 12)
    let var2 := s32 (u32 (p / 4 * u32 c.p8) / 2 ^ 13)
    u32 (s32 (s32 p + s32 (s32 (var1 + var2) + c.p7) / 2 ^ 4))

/-- The registers of the loop at snek-bmp280.c:99-100. -/
def romRegs : List UInt8 := (List.range 24).map fun i => 0x88 + UInt8.ofNat i

/-- `snek_builtin_baro`, snek-bmp280.c:89-198. -/
def baro (b : Bus) : BitVec 32 × Bus :=
  let b := I2c.put env b 0xee 0xf4 0x3f
  let m := reads env junk romRegs b
  let c := rom m.1
  let t := sample env junk m.2 0xfa
  let p := sample env junk t.2 0xf7
  (intToF (press c (tFine c t.1) p.1), p.2)

end Snek.Baro
