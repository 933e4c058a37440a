import Verif.Spec.Order
/-! # Numbers as integers -/
namespace Spec

/-- `u` is a finite number and its value is exactly the integer `i` (values are in units of 2^-149). -/
def Denotes (u : BitVec 32) (i : Int) : Prop := u.toNat % 2 ^ 31 < 0x7f800000 ∧ f32val u = i * 2 ^ 149

/-- Bit `k` of an integer in two's complement (infinitely sign-extended): floor division and parity. -/
def ibit (x : Int) (k : Nat) : Prop := x / 2 ^ k % 2 = 1

/-- The signed 32-bit range. -/
def Int32 (x : Int) : Prop := -2 ^ 31 ≤ x ∧ x < 2 ^ 31

/-- 24-bit integers: every one of them is a number. -/
def Int24 (x : Int) : Prop := -2 ^ 24 ≤ x ∧ x ≤ 2 ^ 24

/-- `u` is a finite number closest to the rational `n / d`, the one with an even bit pattern if two are equally close. (Distances are
multiplied by `d`; values are in units of 2^-149.) -/
def Nearest (u : BitVec 32) (n : Int) (d : Nat) : Prop :=
  u.toNat % 2 ^ 31 < 0x7f800000 ∧
  ∀ v : BitVec 32, v.toNat % 2 ^ 31 < 0x7f800000 →
    (f32val u * d - n).natAbs ≤ (f32val v * d - n).natAbs ∧
    ((f32val u * d - n).natAbs = (f32val v * d - n).natAbs → f32val v = f32val u ∨ u.toNat % 2 = 0)

/-- `u` is `n / d` correctly rounded: the nearest finite number, or the infinity of its sign if its magnitude is at least that of the
point half way between the largest finite number, (2^24 - 1) * 2^253 units, and the next one there would be, 2^277. -/
def Rounded (u : BitVec 32) (n : Int) (d : Nat) : Prop :=
  (2 * n.natAbs < ((2 ^ 24 - 1) * 2 ^ 253 + 2 ^ 277) * d → Nearest u n d) ∧
  (((2 ^ 24 - 1) * 2 ^ 253 + 2 ^ 277) * d ≤ 2 * n.natAbs → u = if n < 0 then 0xff800000#32 else 0x7f800000#32)

end Spec
