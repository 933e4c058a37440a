import Verif.Model.F32
import Verif.Model.Lex
/-!
# Conversion of a number's text

Models `atoff` of `snek-atof.c`, which the AVR builds use as `strtof` (chips/avr/snek-avr.h:32-33, chips/atmega/snek-atmega.h:82-83).
The other builds call the C library's `strtof`, which is not modelled.

Simplifications: `exp` (an `int`) does not overflow, which needs more than seven hundred digits and tokens have at most
SNEK_MAX_TOKEN characters; the case for texts that start with `n` or `i`, which only the `float` builtin can produce, is left out.
-/
namespace Snek.Atof
open Snek.Lex

/-- The variables of `atoff`: `x.u32`, `exp`, FL_OVFL and FL_DOT. FL_ANY is set but never read. -/
structure Acc where
  x : Nat
  exp : Int
  ovfl : Bool
  dot : Bool
  deriving DecidableEq, Repr

/-- The digit loop, snek-atof.c:106-131, with the text from the character that ends it. `c -= '0'` is on `unsigned char`. -/
def digits : List Ch → Acc → Acc × List Ch
  | [], a => (a, [])
  | c :: l, a =>
    if c - 48 ≤ 9 then
      if a.ovfl then digits l { a with exp := if a.dot then a.exp else a.exp + 1 }
      else
        let x := (a.x * 10 + (c - 48).toNat) % 2 ^ 32
        digits l { a with exp := if a.dot then a.exp - 1 else a.exp, x := x, ovfl := decide (x ≥ (2 ^ 32 - 1 - 9) / 10) }
    else if c - 48 = 254 ∧ a.dot = false then digits l { a with dot := true }
    else (a, c :: l)

/-- The exponent's digits, snek-atof.c:150-154. -/
def expDigits : List Ch → Nat → Nat
  | [], i => i
  | c :: l, i => if c - 48 ≤ 9 then expDigits l (if i < 3200 then i * 10 + (c - 48).toNat else i) else i

/-- The exponent, snek-atof.c:133-159; 0 if there is none. -/
def exponent : List Ch → Int
  | [] => 0
  | c :: l =>
    if (c - 48) ||| 32 = 53 then
      match l with
      | [] => 0
      | s :: l' => if s = 45 then -(expDigits l' 0 : Int) else if s = 43 then expDigits l' 0 else expDigits l 0
    else 0

/-- `for (; exp >= pwr; exp -= pwr) x.flt *= *fptr`, snek-atof.c:174-175. -/
def mulN (p : BitVec 32) : Nat → BitVec 32 → BitVec 32
  | 0, f => f
  | n + 1, f => mulN p n (fmul f p)

/-- The loop over the powers, snek-atof.c:173-177. -/
def scale : List (Nat × BitVec 32) → Nat → BitVec 32 → BitVec 32
  | [], _, f => f
  | (pwr, p) :: t, e, f => scale t (e % pwr) (mulN p (e / pwr) f)

/-- `pwr_p10`, snek-atof.c:45-47. -/
def pwrP10 : List (Nat × BitVec 32) :=
  [(32, 0x749dc5ae#32), (16, 0x5a0e1bca#32), (8, 0x4cbebc20#32), (4, 0x461c4000#32), (2, 0x42c80000#32), (1, 0x41200000#32)]

/-- `pwr_m10`, snek-atof.c:48-50. -/
def pwrM10 : List (Nat × BitVec 32) :=
  [(32, 0x0a4fb11f#32), (16, 0x24e69595#32), (8, 0x322bcc77#32), (4, 0x38d1b717#32), (2, 0x3c23d70a#32), (1, 0x3dcccccd#32)]

/-- `atoff`, snek-atof.c:77-180. `__floatunsisf` converts to the nearest float. -/
def atoff (text : List Ch) : BitVec 32 :=
  let r := digits text ⟨0, 0, false, false⟩
  let e := r.1.exp + exponent r.2
  let f := intToF r.1.x
  if feq f 0#32 then f
  else if e < 0 then scale pwrM10 e.natAbs f else scale pwrP10 e.natAbs f

end Snek.Atof
