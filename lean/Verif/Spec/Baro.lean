/-!
# The pressure that a BMP280 has measured

From the data sheet of the sensor (Bosch BST-BMP280-DS001, 3.11.2, 4.2 and 8.2, the formula for 32 bits), in integers; `/` rounds down.
-/
namespace Spec.Baro

/-- The constants of a sensor. -/
structure Cal where
  t1 : Int
  t2 : Int
  t3 : Int
  p1 : Int
  p2 : Int
  p3 : Int
  p4 : Int
  p5 : Int
  p6 : Int
  p7 : Int
  p8 : Int
  p9 : Int
  deriving DecidableEq

/-- A word, the low byte first, without and with sign. -/
def unsigned (regs : UInt8 → UInt8) (a : UInt8) : Int := (regs a).toNat + 256 * (regs (a + 1)).toNat
def signed (regs : UInt8 → UInt8) (a : UInt8) : Int := if unsigned regs a < 32768 then unsigned regs a else unsigned regs a - 65536

/-- Where the constants are. -/
def cal (regs : UInt8 → UInt8) : Cal where
  t1 := unsigned regs 0x88
  t2 := signed regs 0x8a
  t3 := signed regs 0x8c
  p1 := unsigned regs 0x8e
  p2 := signed regs 0x90
  p3 := signed regs 0x92
  p4 := signed regs 0x94
  p5 := signed regs 0x96
  p6 := signed regs 0x98
  p7 := signed regs 0x9a
  p8 := signed regs 0x9c
  p9 := signed regs 0x9e

/-- A reading of 20 bits, the high byte first: pressure at 0xf7, temperature at 0xfa. -/
def reading (regs : UInt8 → UInt8) (a : UInt8) : Int := (regs a).toNat * 4096 + (regs (a + 1)).toNat * 16 + (regs (a + 2)).toNat / 16

section
variable (c : Cal) (t p : Int)

/-- The formula, step by step: the fine temperature from the reading `t`, -/
def temp1 : Int := (t / 8 - c.t1 * 2) * c.t2 / 2048
def temp2 : Int := (t / 16 - c.t1) * (t / 16 - c.t1) / 4096 * c.t3 / 16384
def fine : Int := temp1 c t + temp2 c t
/-- offset and gain, -/
def dev : Int := fine c t / 2 - 64000
def square : Int := dev c t / 4 * (dev c t / 4)
def offset1 : Int := square c t / 2048 * c.p6 + dev c t * c.p5 * 2
def offset : Int := offset1 c t / 4 + c.p4 * 65536
def gain1 : Int := (c.p3 * (square c t / 8192) / 8 + c.p2 * dev c t / 2) / 262144
def gain : Int := (32768 + gain1 c t) * c.p1 / 32768
/-- the raw pressure from the reading `p`, -/
def raw1 : Int := (1048576 - p - offset c t / 4096) * 3125
def raw : Int := if raw1 c t p < 2 ^ 31 then raw1 c t p * 2 / gain c t else raw1 c t p / gain c t * 2
/-- and the pressure in Pa. -/
def corr1 : Int := c.p9 * (raw c t p / 8 * (raw c t p / 8) / 8192)
def corr2 : Int := raw c t p / 4 * c.p8
def pressure : Int := if gain c t = 0 then 0 else raw c t p + (corr1 c t p / 4096 + corr2 c t p / 8192 + c.p7) / 16

def Int32 (x : Int) : Prop := -2 ^ 31 ≤ x ∧ x < 2 ^ 31
instance (x : Int) : Decidable (Int32 x) := by unfold Int32; infer_instance

/-- The steps to offset and gain stay in 32 bits. -/
structure FitsGain : Prop where
  htemp1 : Int32 ((t / 8 - c.t1 * 2) * c.t2)
  htemp2 : Int32 ((t / 16 - c.t1) * (t / 16 - c.t1)) ∧ Int32 ((t / 16 - c.t1) * (t / 16 - c.t1) / 4096 * c.t3)
  hfine : Int32 (fine c t)
  hdev : Int32 (dev c t)
  hsquare : Int32 (square c t)
  hoffset1 : Int32 (square c t / 2048 * c.p6) ∧ Int32 (dev c t * c.p5) ∧ Int32 (dev c t * c.p5 * 2) ∧ Int32 (offset1 c t)
  hoffset : Int32 (offset c t)
  hgain1 : Int32 (c.p3 * (square c t / 8192)) ∧ Int32 (c.p2 * dev c t) ∧ Int32 (c.p3 * (square c t / 8192) / 8 + c.p2 * dev c t / 2)
  hgain : Int32 ((32768 + gain1 c t) * c.p1)

/-- All steps stay in 32 bits, as they are to. -/
structure Fits : Prop extends FitsGain c t where
  hpos : 0 < gain c t
  hraw1 : 0 ≤ raw1 c t p ∧ raw1 c t p < 2 ^ 32
  hraw : raw c t p < 2 ^ 18
  hcorr1 : Int32 (corr1 c t p)
  hcorr2 : Int32 (corr2 c t p)
  hpressure : 0 ≤ pressure c t p ∧ pressure c t p < 2 ^ 18
end

end Spec.Baro
