import Verif.Model.Libc
/-!
# Printing numbers on AVR

`strfromg` (chips/avr/strfromg.c), which replaces `strfromf` on all AVR boards (chips/avr/snek-avr.h:73, chips/atmega/snek-atmega.h:92; the
format is ignored), and `__ftoa_engine` in the C version of the repository (chips/avr/ftoa_engine.c). The boards link the version in
assembler of the C library, of which this one is a rewrite ("Rewritten in C by Soren Kuula").
-/
namespace Snek.Strfromg
open Snek.Format

/-- What `__ftoa_engine(val, buf, 7, 0)` leaves: FTOA_MINUS, FTOA_NAN and FTOA_INF of `buf[0]`, the digits `buf[1..8]`, and the returned exponent. -/
structure Engine where
  minus : Bool
  nan : Bool
  inf : Bool
  digs : List UInt8
  exp : Int

/-- `buf[1 + i]` -/
def at_ (ds : List UInt8) (i : Nat) : UInt8 := ds.getD i 0

/-- `while (prec && buf[1+prec] == '0') prec--;`, strfromg.c:65-66. -/
def lastDig (ds : List UInt8) : Nat → Nat
  | 0 => 0
  | p + 1 => if at_ ds (p + 1) = 48 then lastDig ds p else p + 1

/-- The digit at 10^n, strfromg.c:77. -/
def digAt (ds : List UInt8) (exp : Int) (ndigs : Nat) (n : Int) : UInt8 :=
  if n ≤ exp ∧ exp - ndigs < n then at_ ds (exp - n).toNat else 48

/-- The loop of style `f`, strfromg.c:74-86. `n == exp` after the loop would be a number without digits to show (as `%.0f` of 0.7 in the
function this was made from); FTOA_CARRY then matters, which the engine of the repository never sets. -/
def fixLoop (ds : List UInt8) (exp : Int) (ndigs prec : Nat) (n : Int) : List UInt8 :=
  let dot := if n = -1 then [46] else []
  let c := digAt ds exp ndigs n
  if n - 1 < -(prec : Int) then
    let c := if n - 1 = exp ∧ (at_ ds 0 > 53 ∨ at_ ds 0 = 53) then 49 else c
    dot ++ [c]
  else dot ++ [c] ++ fixLoop ds exp ndigs prec (n - 1)
termination_by (n + prec).toNat
decreasing_by omega

/-- Style `e`, strfromg.c:88-111. (FTOA_CARRY matters for exponent 0 only, which has style `f`.) -/
def expText (ds : List UInt8) (prec : Nat) (exp : Int) : List UInt8 :=
  [at_ ds 0] ++ (if prec ≠ 0 then [46] ++ (ds.drop 1).take prec else []) ++ [101, if exp < 0 then 45 else 43] ++
    [digit false (exp.natAbs / 10), digit false (exp.natAbs % 10)]

/-- `strfromg`, strfromg.c:37-115. -/
def strfromg (e : Engine) : List UInt8 :=
  (if e.minus then [45] else []) ++
    if e.nan then [110, 97, 110]
    else if e.inf then [105, 110, 102]
    else
      let fix := decide (-4 ≤ e.exp ∧ e.exp ≤ 7)
      let prec := lastDig e.digs 7
      if fix then
        let p := if (prec : Int) > e.exp then (prec - e.exp).toNat else 0
        fixLoop e.digs e.exp (prec + 1) p (if 0 < e.exp then e.exp else 0)
      else expText e.digs prec e.exp

/-- `exponentTable`, ftoa_engine.c:42-47. -/
def exponentTable : List Int :=
  [-36, -33, -31, -29, -26, -24, -21, -19, -17, -14, -12, -9, -7, -4, -2, 0, 3, 5, 8, 10, 12, 15, 17, 20, 22, 24, 27, 29, 32, 34, 36, 39]

/-- `factorTable`, ftoa_engine.c:49-82. -/
def factorTable : List Nat :=
  [2295887404, 587747175, 1504632769, 3851859889, 986076132, 2524354897, 646234854, 1654361225, 4235164736, 1084202172, 2775557562, 710542736,
   1818989404, 465661287, 1192092896, 3051757813, 781250000, 2000000000, 512000000, 1310720000, 3355443200, 858993459, 2199023256, 562949953,
   1441151881, 3689348815, 944473297, 2417851639, 618970020, 1584563250, 4056481921, 1038459372]

/-- The loop that makes the digits, ftoa_engine.c:167-207. `decimal` is 10^p in the case `p + 1`, and 0 in the case 0, where the division is
undefined: `none`. The result: the remainder, `decimal`, the exponent, the digits; a digit above 9 gives nines (`.inl`). -/
def digits (maxD : Nat) : Nat → Nat → Int → List UInt8 → Option (Sum Int (Nat × Nat × Int × List UInt8))
  | 0, _, _, _ => none
  | p + 1, prod, exp10, out =>
    let d := prod / 10 ^ p
    if out = [] ∧ d = 0 then digits maxD p (prod % 10 ^ p) (exp10 - 1) out
    else if d < 10 then
      let out := out ++ [digit false d]
      if out.length < maxD then digits maxD p (prod % 10 ^ p) exp10 out else some (.inr (prod % 10 ^ p, 10 ^ p / 10, exp10, out))
    else some (.inl exp10)

/-- `++digits[i]` from the last one on, ftoa_engine.c:218-227; here the last digit comes first. -/
def inc : List UInt8 → List UInt8 × Bool
  | [] => ([], false)
  | c :: l => if c + 1 < 58 then ((c + 1) :: l, true) else (48 :: (inc l).1, (inc l).2)

/-- `round_up`, ftoa_engine.c:213-240. -/
def roundUp (ds : List UInt8) (exp10 : Int) : List UInt8 × Int :=
  let (r, ok) := inc ds.reverse
  if ok then (r.reverse, exp10) else (49 :: (r.reverse.drop 1), exp10 + 1)

/-- `__ftoa_engine(val, buf, 7, 0)`, ftoa_engine.c:97-247: eight digits. -/
def engine (u : BitVec 32) : Option Engine :=
  let frac := u.toNat % 2 ^ 23
  let exp := u.toNat / 2 ^ 23 % 256
  let minus := decide (2 ^ 31 ≤ u.toNat)
  if exp = 0 ∧ frac = 0 then some ⟨minus, false, false, List.replicate 8 48, 0⟩
  else if exp = 255 then some ⟨minus, decide (frac ≠ 0), decide (frac = 0), List.replicate 8 0, 0⟩
  else
    let frac := if exp = 0 then frac else frac + 2 ^ 23
    let exp := if exp = 0 then 1 else exp
    let idx := exp / 8
    let exp10 := exponentTable.getD idx 0
    let prod := frac * factorTable.getD idx 0 / 2 ^ (15 - exp % 8)
    match digits 8 15 prod exp10 [] with
    | none => none
    | some (.inl exp10) =>
      let (ds, x) := roundUp (List.replicate 8 57) exp10
      some ⟨minus, false, false, ds, x⟩
    | some (.inr (prod, decimal, exp10, ds)) =>
      let decimal := decimal * 10
      if decimal / 2 ≤ prod then
        let (ds, x) := roundUp ds exp10
        some ⟨minus, false, false, ds, x⟩
      else some ⟨minus, false, false, ds, exp10⟩

/-- What an AVR board prints for a number. -/
def avr (u : BitVec 32) : Option (List UInt8) := (engine u).map strfromg

end Snek.Strfromg
