import Verif.Model.Math
/-!
# `math.isclose`

`snek_builtin_math_isclose`, snek-math.c:178-207. Arguments are numbers (others are NaNs as `float`s).
-/
namespace Snek.Isclose

/-- `fmaxf` of the C library (C11 7.12.12.2): the larger number; a NaN is ignored if the other is a number. -/
def fmaxf (a b : BitVec 32) : BitVec 32 :=
  if isNanF a then b else if isNanF b then a else if fltF a b then b else a

/-- The names of named actuals. `other`: any other name. -/
inductive Name | rel_tol | abs_tol | other
  deriving DecidableEq, Repr

/-- The tolerances: their defaults, snek-math.c:186-187 (`1e-6f` is 0x358637bd), and the loop over named actuals, :189-200. -/
def tols : List (Name × BitVec 32) → (rel abs : BitVec 32) → BitVec 32 × BitVec 32
  | [], rel, abs => (rel, abs)
  | (.rel_tol, v) :: l, _, abs => tols l v abs
  | (.abs_tol, v) :: l, rel, _ => tols l rel v
  | (.other, _) :: l, rel, abs => tols l rel abs

/-- The comparison, snek-math.c:201-203. -/
def close (af bf rel abs : BitVec 32) : Bool :=
  let dist := fabs (fsub af bf)
  let tol := fmaxf (fmul rel (fmaxf (fabs af) (fabs bf))) abs
  fle dist tol

/-- `snek_builtin_math_isclose`, snek-math.c:178-204; `none`: the error of :181-182. -/
def isclose : List (BitVec 32) → List (Name × BitVec 32) → Option Bool
  | [a, b], named => some (let (rel, abs) := tols named 0x358637bd 0; close a b rel abs)
  | _, _ => none

end Snek.Isclose
