import Verif.Model.Cmp
import Verif.Model.F32
/-!
# Formatting of values

Models `snek_poly_format` (snek-print.c:49-155) and `snek_string_interpolate` (snek-string.c:162-237).

Values are finite trees (see `Verif.Model.Cmp`; on a cyclic list the C recursion does not return). What the C library does is a parameter:
`strfromf` of a number and the builtins' names; `sprintf` of an `int` is modelled. Memory for the result is always available. The buffer
`tmp` is not modelled: 32 bytes are enough for what `strfromf` may write, for an `int` in any base and for the names of builtins.
The functions work on the values as they are, not on addresses: `snek_poly_format` reads a string through an address that it took before it
allocated, which a collection in between invalidates; that is outside of this model.
-/
namespace Snek.Format

/-- `int` has `intBits` bits; `strf c u` is `strfromf(tmp, 32, "%c", u)`, `g9 u` is `strfromf(tmp, 32, "%.9g", u)` (on AVR both are
`strfromg`, chips/avr/strfromg.c); `name` gives a builtin's name, `snek_name_string`. -/
structure Lib where
  intBits : Nat
  strf : UInt8 → BitVec 32 → List UInt8
  g9 : BitVec 32 → List UInt8
  name : Nat → List UInt8

/-- A digit's character in base `b`; `up`: capitals. -/
def digit (up : Bool) (d : Nat) : UInt8 := if d < 10 then 48 + .ofNat d else (if up then 55 else 87) + .ofNat d

/-- A number's digits in base `b ≥ 2`. -/
def digitsIn (b : Nat) (up : Bool) (n : Nat) : List UInt8 :=
  if _h : n < b ∨ b < 2 then [digit up n] else digitsIn b up (n / b) ++ [digit up (n % b)]
termination_by n
decreasing_by
  have : ¬ (n < b) ∧ ¬ (b < 2) := by omega
  exact Nat.div_lt_self (by omega) (by omega)

/-- C's `sprintf(tmp, "%c", i)` for `%d %i %o %x %X %c`, then the bytes before the first NUL. -/
def sprintInt (L : Lib) (f : UInt8) (i : Int) : List UInt8 :=
  if f = 100 ∨ f = 105 then (if i < 0 then [45] else []) ++ digitsIn 10 false i.natAbs
  else if f = 111 then digitsIn 8 false (i % 2 ^ L.intBits).toNat
  else if f = 120 then digitsIn 16 false (i % 2 ^ L.intBits).toNat
  else if f = 88 then digitsIn 16 true (i % 2 ^ L.intBits).toNat
  else if (i % 256).toNat = 0 then [] else [.ofNat (i % 256).toNat]

/-- A `char` as an `int` (here `char` is signed, as on the targets but ARM; only `%c` uses it, which takes the low byte again). -/
def charInt (c : UInt8) : Int := if c < 128 then c.toNat else (c.toNat : Int) - 256

/-- What the first `switch` does: write something and return (`none`: the conversion to `int` is undefined), or go on with a format. -/
inductive Sw | done (r : Option (List UInt8)) | go (f : UInt8)

/-- `print_float` and `print_int`, snek-print.c:69-73. -/
def asInt (L : Lib) (f : UInt8) (u : BitVec 32) : Option (List UInt8) := (fToInt L.intBits u).map (sprintInt L f)

/-- The first `switch` of `snek_poly_format`, snek-print.c:61-109. -/
def sw (L : Lib) (f : UInt8) (t : Tree) : Sw :=
  if f = 100 ∨ f = 105 ∨ f = 111 ∨ f = 120 ∨ f = 88 then
    match t with
    | .num u => .done (asInt L f u)
    | _ => .go f
  else if f = 101 ∨ f = 69 ∨ f = 102 ∨ f = 70 ∨ f = 103 ∨ f = 71 then
    match t with
    | .num u => .done (some (L.strf f u))
    | _ => .go f
  else if f = 99 then
    match t with
    | .num u => .done (asInt L f u)
    | .str s => .done (some (sprintInt L f (charInt (s.headD 0))))
    | _ => .go f
  else if f = 115 then
    match t with
    | .str s => .done (some s)
    | _ => .go 97
  else .go f

/-- `snek_list_open`, snek-print.c:17-29. -/
def opening : LType → UInt8
  | .list => 91 | .tuple => 40 | .dict => 123

/-- `snek_list_close`, snek-print.c:31-43. -/
def closing : LType → UInt8
  | .list => 93 | .tuple => 41 | .dict => 125

/-- `list_sep_char`, snek-print.c:141-145. -/
def sep (ty : LType) (o : Nat) : UInt8 := if ty = .dict ∧ o % 2 = 0 then 58 else 44

mutual
/-- `snek_poly_format`, snek-print.c:49-155. -/
def fmt (L : Lib) (f : UInt8) : Tree → Option (List UInt8)
  | .num u => match sw L f (.num u) with | .done r => r | .go _ => some (L.g9 u)
  | .str s => match sw L f (.str s) with | .done r => r | .go _ => some ([39] ++ s ++ [39])
  | .func o => match sw L f (.func o) with | .done r => r | .go _ => some ([60, 102, 117, 110, 99, 116, 105, 111, 110, 32, 97, 116, 32] ++ digitsIn 10 false o ++ [62])
  | .builtin o =>
    match sw L f (.builtin o) with
    | .done r => r
    | .go _ => if o = 0x7ffffc then some [78, 111, 110, 101] else some ([60, 98, 117, 105, 108, 116, 105, 110, 32] ++ L.name o ++ [62])
  | .list ty l =>
    match sw L f (.list ty l) with
    | .done r => r
    | .go f => (elems L f ty l.length 0 l).map fun s => [opening ty] ++ s ++ [closing ty]
/-- The loop over the elements, snek-print.c:134-150, from index `o`. -/
def elems (L : Lib) (f : UInt8) (ty : LType) (size o : Nat) : List Tree → Option (List UInt8)
  | [] => some []
  | t :: l => do
    let a ← fmt L f t
    let b ← elems L f ty size (o + 1) l
    pure (a ++ (if o < size - 1 ∨ (size = 1 ∧ ty = .tuple) then [sep ty o, 32] else []) ++ b)
end

/-- The `while` loop of `snek_string_interpolate`, snek-string.c:190-232, with the rest of `a`, `o` and `result`; the characters up to the
next percent sign are copied one by one. `data` are the arguments, `size` of them. The inner `none`: a format is undefined. -/
def interLoop (L : Lib) (data : List Tree) : List UInt8 → Nat → List UInt8 → Option (Nat × List UInt8)
  | [], o, r => some (o, r)
  | [37], _, r => some (data.length + 1, r)
  | 37 :: f :: a, o, r =>
    if f = 37 then interLoop L data a o (r ++ [37])
    else
      match data[o]? with
      | none => interLoop L data a (data.length + 1) r
      | some t =>
        match fmt L f t with
        | none => none
        | some s => interLoop L data a (o + 1) (r ++ s)
  | c :: a, o, r => interLoop L data a o (r ++ [c])

/-- The outcome of `%`: a string, `None` (the null that stands for no string), a type error, or undefined. -/
inductive Res | str (s : List UInt8) | null | error | undefined
  deriving DecidableEq, Repr

/-- The arguments: those of a list or tuple, or the one value, snek-string.c:176-188. -/
def argsOf : Tree → List Tree
  | .list .dict l => [.list .dict l]
  | .list _ l => l
  | t => [t]

/-- `snek_string_interpolate`, snek-string.c:162-237. -/
def interpolate (L : Lib) (a : List UInt8) (p : Tree) : Res :=
  match interLoop L (argsOf p) a 0 [] with
  | none => .undefined
  | some (o, r) => if o ≠ (argsOf p).length then .error else if a = [] then .null else .str r

end Snek.Format
