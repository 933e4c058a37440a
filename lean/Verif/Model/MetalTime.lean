import Verif.Model.Time
/-!
# The clock of the HiFive1 Rev B

Models `snek_millis`, `time.sleep` and `time.monotonic` of `ports/hifive1revb/snek-metal-builtin.c`. The cycle count and its frequency
are inputs (`metal_timer_get_cyclecount`, `metal_timer_get_timebase_frequency`).
-/
namespace Snek.MetalTime

/-- `snek_millis`, snek-metal-builtin.c:23-31. -/
def millis (cycles freq : Nat) : BitVec 32 := BitVec.ofNat 32 (cycles * 1000 % 2 ^ 64 / freq)

/-- When `time.sleep` is to end, snek-metal-builtin.c:36: an unsigned count plus a `float` is a `float`. `none` is undefined behaviour. -/
def expire (now : BitVec 32) (sec : BitVec 32) : Option (BitVec 32) :=
  let f := fadd (intToF now.toNat) (fadd (fmul sec (intToF 1000)) 0x3f000000)
  if isFin f ∧ 0 ≤ ftrunc f ∧ ftrunc f < 2 ^ 32 then some (BitVec.ofInt 32 (ftrunc f)) else none

/-- The condition of the loop at a look at the clock, snek-metal-builtin.c:37 (`snek_abort` apart). -/
def waits (e now : BitVec 32) : Bool := decide (0 < (e - now).toInt)

/-- `time.monotonic`, snek-metal-builtin.c:42-46. -/
def monotonic (now : BitVec 32) : BitVec 32 := fdiv (intToF now.toNat) (intToF 1000)

end Snek.MetalTime
