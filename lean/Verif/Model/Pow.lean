import Verif.Model.Number
import Verif.Model.Math
/-!
# exp, log and powers without a C library

Models `expf`, `logf` and the general path of `powf`, `snek-pow.c:23-111, 132-139` (the boards with an AVR chip but the Mega). `float` operations are IEEE's (Model/F32);
`frexpf` is the C library's. Where the code has a `double` constant (0.5, 2.0) the operation is exact, and `double` is `float` on these chips.
-/
namespace Snek.Pow

/-- `frexpf` (C11 7.12.6.4): a fraction from 0.5 to 1 and a power of two; of 0, infinities and NaN the argument itself. -/
def frexp (u : BitVec 32) : BitVec 32 × Int :=
  let m := u.toNat % 2 ^ 31
  if m = 0 ∨ 0x7f800000 ≤ m then (u, 0)
  else if m < 2 ^ 23 then (fmk (fneg u) (126 * 2 ^ 23 + (m * 2 ^ (23 - m.log2) - 2 ^ 23)), -125 - (23 - m.log2 : Nat))
  else (fmk (fneg u) (126 * 2 ^ 23 + m % 2 ^ 23), (m / 2 ^ 23 : Nat) - 126)

/-- `term *= a / (float) loop; sum += term`, snek-pow.c:69-76. -/
def term (a : BitVec 32) (loop : Nat) (s : BitVec 32 × BitVec 32) : BitVec 32 × BitVec 32 :=
  let t := fmul s.1 (fdiv a (intToF loop))
  (t, fadd s.2 t)

/-- The loop, snek-pow.c:69-76: terms 1 to `n`. -/
def terms (a : BitVec 32) : Nat → BitVec 32 × BitVec 32
  | 0 => (intToF 1, 0)
  | n + 1 => term a (n + 1) (terms a n)

/-- `while (e--) sum *= sum`, snek-pow.c:80-81. -/
def squares : Nat → BitVec 32 → BitVec 32
  | 0, s => s
  | e + 1, s => squares e (fmul s s)

/-- From the reduced argument, snek-pow.c:54-82. -/
def series (a : BitVec 32) (e : Nat) : BitVec 32 := squares e (fadd (terms a 8).2 (intToF 1))

/-- `expf` of an argument that is not negative, snek-pow.c:38-82. `0x3f000000` is 0.5. -/
def expPos (a : BitVec 32) : BitVec 32 :=
  if fle 0x3f000000 a then
    let e := ((frexp a).2 + 1).toNat % 256
    if 7 < e then 0x7f800000 else series (fdiv (frexp a).1 (intToF 2)) e
  else series a 0

/-- `expf`, snek-pow.c:32-82. -/
def expf (a : BitVec 32) : BitVec 32 := if fltF a 0 then fdiv (intToF 1) (expPos (fneg1 a)) else expPos a

/-- `_log2`, snek-pow.c:94: 0.693147180559945f. -/
def log2 : BitVec 32 := 0x3f317218

/-- One round of Newton's method, snek-pow.c:104-105. -/
def newton (a l : BitVec 32) : BitVec 32 := fsub l (fdiv (fsub (expf l) a) (expf l))

/-- The loop, snek-pow.c:103-106. -/
def newtons (a : BitVec 32) : Nat → BitVec 32 → BitVec 32
  | 0, l => l
  | n + 1, l => newtons a n (newton a l)

/-- `logf`, snek-pow.c:96-109. -/
def logf (a : BitVec 32) : BitVec 32 :=
  let m := (frexp a).1
  fadd (if feq m 0x3f000000 then fneg1 log2 else newtons m 5 (fneg1 log2)) (fmul (intToF (frexp a).2) log2)

/-- `expf(logf(a) * b)`, snek-pow.c:138. -/
def gen (a b : BitVec 32) : BitVec 32 := expf (fmul (logf a) b)

/-- `powf`, snek-pow.c:132-139. -/
def powf : BitVec 32 → BitVec 32 → BitVec 32 := powfSmall gen

end Snek.Pow
