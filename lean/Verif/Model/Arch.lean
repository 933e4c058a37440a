/-!
# Target parameters and C integer arithmetic

`snek.h` 60-70 picks the offset type from the pool size; the C `int` width is that of the target compiler.
-/
namespace Snek

/-- Target parameters: width of `snek_offset_t`/`snek_soffset_t` (snek.h:60-70) and of C `int`. -/
structure Arch where
  offBits : Nat
  intBits : Nat

/-- Posix, Windows, EV3: 262144 byte pool (ports/posix/snek-posix.builtin:30), 32-bit offsets. -/
def Arch.posix : Arch := ⟨32, 32⟩
/-- 32-bit micro-controllers (samd21, riscv): pool ≤ 65536, 16-bit offsets, 32-bit int (chips/samd21/ao-snek.h:23). -/
def Arch.arm : Arch := ⟨16, 32⟩
/-- AVR: 16-bit offsets, 16-bit int (chips/avr/snek-avr.h:34). -/
def Arch.avr : Arch := ⟨16, 16⟩

/-- The shapes the code is compiled for: offsets are not wider than `int` and at least 16 bits. -/
structure Arch.Valid (a : Arch) : Prop where
  lo : 16 ≤ a.offBits
  le : a.offBits ≤ a.intBits

theorem Arch.posix_valid : Arch.posix.Valid := ⟨by decide, by decide⟩
theorem Arch.arm_valid : Arch.arm.Valid := ⟨by decide, by decide⟩
theorem Arch.avr_valid : Arch.avr.Valid := ⟨by decide, by decide⟩

/-- Largest `snek_soffset_t`. -/
def Arch.soffMax (a : Arch) : Int := 2 ^ (a.offBits - 1) - 1
/-- `SNEK_SOFFSET_NONE`, snek.h:64 and 69: 0x7ffc or 0x7ffffffc. -/
def Arch.soffNone (a : Arch) : Int := 2 ^ (a.offBits - 1) - 4

example : Arch.arm.soffNone = 0x7ffc ∧ Arch.posix.soffNone = 0x7ffffffc := by decide

/-- Result of a signed C `int` computation: overflow is undefined behaviour (`none`). -/
def Arch.int (a : Arch) (x : Int) : Option Int :=
  if -(2 ^ (a.intBits - 1)) ≤ x ∧ x < 2 ^ (a.intBits - 1) then some x else none

/-- Conversion of an `int` to `snek_soffset_t` (implementation defined in C; two's complement wrap on every supported compiler). -/
def Arch.toSoff (a : Arch) (x : Int) : Int := Int.bmod x (2 ^ a.offBits)

/-- Conversion to `snek_offset_t` (unsigned wrap). -/
def Arch.toOff (a : Arch) (x : Int) : Nat := (x % (2 ^ a.offBits : Nat)).toNat

end Snek
