import Verif.Model.Number
/-!
# Functions of the math module that the code computes itself

Models `gcdf` and `factorialf` of snek-math.c. (Most other functions call the C library.) Arguments are numbers; they pass through
`snek_poly_to_float` unchanged.
-/
namespace Snek

/-- `fabsf`. -/
def fabs (a : BitVec 32) : BitVec 32 := fmk false (a.toNat % 2 ^ 31)

/-- The loop of `gcdf`, snek-math.c:168-172. -/
def gcdLoop (a b : Nat) : Nat :=
  if _h : 1 < a ∧ 1 < b then gcdLoop b (a % b) else a
termination_by b
decreasing_by exact Nat.mod_lt _ (by omega)

/-- `gcdf`, snek-math.c:160-174, where `int` has `w` bits; a value that does not fit is undefined behaviour. -/
def gcdf (w : Nat) (af bf : BitVec 32) : NumR :=
  match fToInt w (fabs af), fToInt w (fabs bf) with
  | some a, some b => if a = 0 ∨ b = 0 then .ok 0 else .ok (floatToPoly (intToF (gcdLoop a.toNat b.toNat)))
  | _, _ => .undefined

/-- IEEE `a <= b` on numbers that are not NaN. -/
def fle (a b : BitVec 32) : Bool := !isNanF a && !isNanF b && decide (fkey a ≤ fkey b)

/-- The loop of `factorialf`, snek-math.c:44-45. It makes at most 34 rounds as `f <= 35`; the last argument bounds them. -/
def factLoop (f : BitVec 32) : BitVec 32 → BitVec 32 → Nat → BitVec 32
  | result, _, 0 => result
  | result, x, n + 1 => if fle x f then factLoop f (fmul result x) (fadd x (intToF 1)) n else result

/-- `factorialf`, snek-math.c:38-47. -/
def factorialf (f : BitVec 32) : BitVec 32 :=
  if !isNanF f && decide (fkey (intToF 35) < fkey f) then 0x7f800000
  else factLoop f (intToF 1) (intToF 2) 40

end Snek
