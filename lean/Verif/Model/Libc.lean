import Verif.Model.Format
/-!
# `%.9g`

What C requires of `strfromf(tmp, 32, "%.9g", x)` (snek-print.c:116), with the exact decimal expansion rounded to nearest, ties to even
(C11 7.21.6.1 and F.5), as glibc, newlib and picolibc do. On AVR `strfromf` is `strfromg` (chips/avr/strfromg.c), which writes at
most eight digits: `Model/Strfromg`.
-/
namespace Snek.Format

/-- The number of decimal digits, less one. -/
def ilog10 (n : Nat) : Nat := if _h : n < 10 then 0 else ilog10 (n / 10) + 1
termination_by n
decreasing_by omega

/-- A magnitude of `m` units of 2^-149, not 0, is `D * 10^(Y - 53)` to nine digits. -/
def nine (m : Nat) : Nat × Nat :=
  let Y := ilog10 (m * 10 ^ 45 / 2 ^ 149)
  let D := rne (m * 10 ^ 45 * 10 ^ 8) (2 ^ 149 * 10 ^ Y)
  if D = 10 ^ 9 then (10 ^ 8, Y + 1) else (D, Y)

/-- `n` decimal digits. -/
def pad : Nat → Nat → List UInt8
  | 0, _ => []
  | n + 1, D => pad n (D / 10) ++ [digit false (D % 10)]

/-- Without the zeros at the end. -/
def strip (s : List UInt8) : List UInt8 := (s.reverse.dropWhile (· = 48)).reverse

/-- Integer part and fraction. -/
def point (ip fp : List UInt8) : List UInt8 := if fp = [] then ip else ip ++ [46] ++ fp

/-- `%g` of `D * 10^(Y - 53)`: the exponent is X = Y - 45; style `e` if it is less than -4 or not less than 9. -/
def gText (D Y : Nat) : List UInt8 :=
  let ds := pad 9 D
  if Y < 41 then point (ds.take 1) (strip (ds.drop 1)) ++ [101, 45] ++ pad 2 (45 - Y)
  else if 54 ≤ Y then point (ds.take 1) (strip (ds.drop 1)) ++ [101, 43] ++ pad 2 (Y - 45)
  else if 45 ≤ Y then point (ds.take (Y - 44)) (strip (ds.drop (Y - 44)))
  else point [48] (strip (List.replicate (44 - Y) 48 ++ ds))

/-- `%.9g` -/
def g9 (u : BitVec 32) : List UInt8 :=
  (if fneg u then [45] else []) ++
    if isNanF u then [110, 97, 110]
    else if isInfF u then [105, 110, 102]
    else
      let m := fmag (u.toNat % 2 ^ 31)
      if m = 0 then [48] else gText (nine m).1 (nine m).2

end Snek.Format
