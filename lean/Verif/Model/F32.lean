import Verif.Model.Cmp
/-!
# IEEE binary32 arithmetic

The C code computes with `float`. The operations below are what IEEE 754 prescribes for binary32 with round to nearest, ties
to even, on bit patterns; that the compiler and the hardware (or soft-float library) implement them is part of the trusted
base. Magnitudes are measured in units of 2^-149 (the smallest subnormal), so that every finite value is an integer.
-/
namespace Snek

/-- IEEE 754 binary32: magnitude encoded by the 31 low bits, in units of 2^-149. -/
def fmag (m : Nat) : Nat :=
  if m / 2 ^ 23 = 0 then m % 2 ^ 23 else (2 ^ 23 + m % 2 ^ 23) * 2 ^ (m / 2 ^ 23 - 1)

/-- The sign bit. -/
def fneg (u : BitVec 32) : Bool := 2 ^ 31 ≤ u.toNat

/-- IEEE 754 binary32: value of a finite pattern in units of 2^-149. -/
def fval (u : BitVec 32) : Int :=
  if fneg u then -(fmag (u.toNat - 2 ^ 31) : Int) else (fmag u.toNat : Int)

/-- Infinities. -/
def isInfF (u : BitVec 32) : Bool := u.toNat % 2 ^ 31 = 0x7f800000

/-- Neither NaN nor infinite. -/
def isFin (u : BitVec 32) : Bool := u.toNat % 2 ^ 31 < 0x7f800000

/-- Pattern with the given sign and 31 low bits. -/
def fmk (neg : Bool) (mag : Nat) : BitVec 32 := BitVec.ofNat 32 (mag + if neg then 2 ^ 31 else 0)

/-- Round `n / d` to an integer, ties to even (IEEE 754 roundTiesToEven). -/
def rne (n d : Nat) : Nat :=
  if 2 * (n % d) < d ∨ (2 * (n % d) = d ∧ n / d % 2 = 0) then n / d else n / d + 1

/-- Round the non-negative `n / d` (units of 2^-149) to binary32: the 31 low bits. The significand is kept to 24 bits; the
carry out of the significand increments the exponent field; overflow gives infinity. -/
def roundMag (n d : Nat) : Nat :=
  let q := n / d
  let e := if q < 2 ^ 24 then 0 else q.log2 - 23
  min (e * 2 ^ 23 + rne n (d * 2 ^ e)) 0x7f800000

/-- Round the signed integer `s` (units of 2^-149); `s ≠ 0`. -/
def fround (s : Int) : BitVec 32 := fmk (s < 0) (roundMag s.natAbs 1)

/-- `af + bf`, snek-exec.c:333. IEEE addition. -/
def fadd (a b : BitVec 32) : BitVec 32 :=
  if isNanF a || isNanF b then NAN_U
  else if isInfF a then (if isInfF b && fneg a != fneg b then NAN_U else a)
  else if isInfF b then b
  else
    let s := fval a + fval b
    if s = 0 then fmk (fneg a && fneg b) 0 else fround s

/-- Unary minus on a `float` (flips the sign bit). -/
def fneg1 (a : BitVec 32) : BitVec 32 := fmk (!fneg a) (a.toNat % 2 ^ 31)

/-- `af - bf`, snek-exec.c:336. IEEE subtraction is addition of the negated operand. -/
def fsub (a b : BitVec 32) : BitVec 32 := fadd a (fneg1 b)

/-- `af * bf`, snek-exec.c:339. IEEE multiplication. -/
def fmul (a b : BitVec 32) : BitVec 32 :=
  if isNanF a || isNanF b then NAN_U
  else if isInfF a || isInfF b then
    if (isFin a && fval a == 0) || (isFin b && fval b == 0) then NAN_U else fmk (fneg a != fneg b) 0x7f800000
  else fmk (fneg a != fneg b) (roundMag ((fval a).natAbs * (fval b).natAbs) (2 ^ 149))

/-- `af / bf`, snek-exec.c:342. IEEE division. -/
def fdiv (a b : BitVec 32) : BitVec 32 :=
  if isNanF a || isNanF b then NAN_U
  else if isInfF a then (if isInfF b then NAN_U else fmk (fneg a != fneg b) 0x7f800000)
  else if isInfF b then fmk (fneg a != fneg b) 0
  else if fval b = 0 then (if fval a = 0 then NAN_U else fmk (fneg a != fneg b) 0x7f800000)
  else fmk (fneg a != fneg b) (roundMag ((fval a).natAbs * 2 ^ 149) (fval b).natAbs)

/-- `floorf`: the largest integer not above the value (exact in binary32); zero results keep the sign. -/
def ffloor (a : BitVec 32) : BitVec 32 :=
  if !isFin a then a
  else
    let q := fval a / 2 ^ 149
    if q = 0 then fmk (fneg a) 0 else fround (q * 2 ^ 149)

/-- `snek_op_div` on numbers, snek-exec.c:344-346. -/
def floordiv (a b : BitVec 32) : BitVec 32 := ffloor (fdiv a b)

/-- `snek_op_mod` on numbers, snek-exec.c:347-349. (No contraction of the product and the difference into a fused
operation.) -/
def fmod (a b : BitVec 32) : BitVec 32 := fsub a (fmul (ffloor (fdiv a b)) b)

/-- Conversion of an integer to `float`. -/
def intToF (i : Int) : BitVec 32 := if i = 0 then 0 else fround (i * 2 ^ 149)

/-- Conversion of a finite `float` to an integer type: truncation toward zero. -/
def ftrunc (a : BitVec 32) : Int := Int.tdiv (fval a) (2 ^ 149)

/-- Conversion of a `float` to a signed integer of `w` bits. `none` is undefined behaviour: NaN, infinity or a truncated
value out of range (C11 6.3.1.4). -/
def fToInt (w : Nat) (a : BitVec 32) : Option Int :=
  if isFin a ∧ -(2 ^ (w - 1)) ≤ ftrunc a ∧ ftrunc a < 2 ^ (w - 1) then some (ftrunc a) else none

/-- IEEE `a == b`. -/
def feq (a b : BitVec 32) : Bool := !isNanF a && !isNanF b && fkey a == fkey b

end Snek
