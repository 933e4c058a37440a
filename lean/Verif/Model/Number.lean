import Verif.Model.F32
/-!
# Operators on two numbers

Models `snek_float_to_int` (snek-exec.c:248-255), the number branch of `snek_binary` (snek-exec.c:325-371), the unary
operators (snek-exec.c:857-864) and the small `powf` (snek-pow.c:119-139).
-/
namespace Snek

/-- The arithmetic operators that have an augmented assignment form, snek.h:104-115 (same order). -/
inductive BinOp | plus | minus | times | divide | div | mod | pow | land | lor | lxor | lshift | rshift
  deriving DecidableEq, Repr

/-- Outcome of a numeric operation: a number, a reported value error, or C undefined behaviour. -/
inductive NumR | ok (u : BitVec 32) | error | undefined
  deriving DecidableEq, Repr

/-- `snek_float_to_int`, snek-exec.c:248-255: `none` is undefined behaviour, `some none` a reported error. -/
def floatToInt (a : BitVec 32) : Option (Option Int) :=
  match fToInt 32 a with
  | none => none
  | some i => if feq (intToF i) a then some (some i) else some none

/-- Both operands converted, then `f` (snek-exec.c:353-367). -/
def bitop (f : Int → Int → NumR) (a b : BitVec 32) : NumR :=
  match floatToInt a, floatToInt b with
  | some (some x), some (some y) => f x y
  | none, _ => .undefined
  | _, none => .undefined
  | _, _ => .error

/-- C `<<` on `int32_t`: undefined for a negative or too large count, a negative left operand, or overflow (C11 6.5.7). -/
def shl32 (x y : Int) : NumR :=
  if 0 ≤ y ∧ y < 32 ∧ 0 ≤ x ∧ x * 2 ^ y.toNat < 2 ^ 31 then .ok (intToF (x * 2 ^ y.toNat)) else .undefined

/-- C `>>` on `int32_t`: undefined for a negative or too large count; arithmetic shift for negative left operands (every
supported compiler). -/
def shr32 (x y : Int) : NumR :=
  if 0 ≤ y ∧ y < 32 then .ok (intToF (x >>> y.toNat)) else .undefined

/-- Bitwise operation on `int32_t`. -/
def bits32 (f : BitVec 32 → BitVec 32 → BitVec 32) (x y : Int) : NumR :=
  .ok (intToF (f (BitVec.ofInt 32 x) (BitVec.ofInt 32 y)).toInt)

/-- The number branch of `snek_binary`, snek-exec.c:325-371; `powf` is a parameter. The result goes through
`snek_float_to_poly`. -/
def numBinary (powf : BitVec 32 → BitVec 32 → BitVec 32) (op : BinOp) (a b : BitVec 32) : NumR :=
  let done : NumR → NumR
    | .ok u => .ok (floatToPoly u)
    | r => r
  done <| match op with
  | .plus => .ok (fadd a b)
  | .minus => .ok (fsub a b)
  | .times => .ok (fmul a b)
  | .divide => .ok (fdiv a b)
  | .div => .ok (floordiv a b)
  | .mod => .ok (fmod a b)
  | .pow => .ok (powf a b)
  | .land => bitop (bits32 (· &&& ·)) a b
  | .lor => bitop (bits32 (· ||| ·)) a b
  | .lxor => bitop (bits32 (· ^^^ ·)) a b
  | .lshift => bitop shl32 a b
  | .rshift => bitop shr32 a b

/-- `snek_op_uminus` on a number, snek-exec.c:860-861. -/
def numUminus (a : BitVec 32) : BitVec 32 := floatToPoly (fneg1 a)

/-- `snek_op_lnot` on a number, snek-exec.c:863-864: the complement is taken as `uint32_t`. -/
def numLnot (a : BitVec 32) : NumR :=
  match floatToInt a with
  | none => .undefined
  | some none => .error
  | some (some x) => .ok (floatToPoly (intToF (~~~ BitVec.ofInt 32 x).toNat))

/-- The loop of `ipow`, snek-pow.c:122-128: `r`, `a` and the remaining exponent. -/
def ipowLoop (r a : BitVec 32) (x : Nat) : BitVec 32 :=
  if h : x = 0 then r
  else ipowLoop (if x % 2 = 1 then fmul r a else r) (fmul a a) (x / 2)
termination_by x
decreasing_by omega

/-- `ipow`, snek-pow.c:119-130. The exponent is a `uint8_t`. -/
def ipow (a : BitVec 32) (x : Nat) : BitVec 32 := ipowLoop (intToF 1) a x

/-- The small `powf`, snek-pow.c:132-139: `uint8_t u = b` (undefined behaviour outside 0..255 is modelled as taking the
general path), `expf`/`logf` path is the parameter `gen`. -/
def powfSmall (gen : BitVec 32 → BitVec 32 → BitVec 32) (a b : BitVec 32) : BitVec 32 :=
  if isFin b ∧ 0 ≤ ftrunc b ∧ ftrunc b < 256 ∧ feq (intToF (ftrunc b)) b then ipow a (ftrunc b).toNat else gen a b

end Snek
