import Verif.Model.Cmp
/-!
# Printed forms

How the language's documentation (doc/, "Strings", "print") says that values look and what `%` does.
-/
namespace Spec.Print
open Snek

abbrev Bytes := List UInt8

/-- The parts with commas between. -/
def commas : List Bytes → Bytes
  | [] => []
  | [a] => a
  | a :: l => a ++ [44, 32] ++ commas l

/-- Keys and values, `k: v`. -/
def entries : List Bytes → List Bytes
  | k :: v :: l => (k ++ [58, 32] ++ v) :: entries l
  | _ => []

section
variable (num : BitVec 32 → Bytes) (func builtin : Nat → Bytes)

mutual
/-- `[a, b]`, `(a, b)`, `(a, )`, `{k: v, k: v}`, strings between quotes. -/
def render : Tree → Bytes
  | .num u => num u
  | .str s => [39] ++ s ++ [39]
  | .func o => func o
  | .builtin o => builtin o
  | .list .list l => [91] ++ commas (renders l) ++ [93]
  | .list .tuple l => [40] ++ (match renders l with | [a] => a ++ [44, 32] | r => commas r) ++ [41]
  | .list .dict l => [123] ++ commas (entries (renders l)) ++ [125]
def renders : List Tree → List Bytes
  | [] => []
  | t :: l => render t :: renders l
end

mutual
/-- Dictionaries have a value for every key. -/
def Paired : Tree → Prop
  | .list .dict l => l.length % 2 = 0 ∧ AllPaired l
  | .list _ l => AllPaired l
  | _ => True
def AllPaired : List Tree → Prop
  | [] => True
  | t :: l => Paired t ∧ AllPaired l
end
end

/-- A piece of a format: a character or a conversion. -/
inductive Piece | lit (c : UInt8) | conv (f : UInt8)
  deriving DecidableEq, Repr

/-- The pieces of a format; `%%` is a percent sign. A percent sign at the end is not a format. -/
def pieces : Bytes → Option (List Piece)
  | [] => some []
  | [37] => none
  | 37 :: f :: a => (pieces a).map ((if f = 37 then .lit 37 else .conv f) :: ·)
  | c :: a => (pieces a).map (.lit c :: ·)

/-- How many arguments a format takes. -/
def arity : List Piece → Nat
  | [] => 0
  | .lit _ :: l => arity l
  | .conv _ :: l => arity l + 1

/-- The text: conversions are replaced in order. -/
def fill (text : UInt8 → Tree → Bytes) : List Piece → List Tree → Bytes
  | .lit c :: l, ts => c :: fill text l ts
  | .conv f :: l, t :: ts => text f t ++ fill text l ts
  | _, _ => []

/-- A digit's value. -/
def digitVal (c : UInt8) : Nat := if c < 58 then c.toNat - 48 else if c < 91 then c.toNat - 55 else c.toNat - 87

/-- The number that digits write in base `b`. -/
def numeral (b : Nat) (s : Bytes) : Nat := s.foldl (fun n c => n * b + digitVal c) 0

/-- A decimal digit. -/
def isDigit (c : UInt8) : Bool := 48 ≤ c ∧ c ≤ 57

/-- The number that an unsigned decimal writes: `n * 10^e`. -/
def unsigned (s : Bytes) : Nat × Int :=
  let ip := s.takeWhile isDigit
  let r := s.dropWhile isDigit
  let (fp, r) := match r with
    | 46 :: t => (t.takeWhile isDigit, t.dropWhile isDigit)
    | _ => ([], r)
  let e : Int := match r with
    | 101 :: 45 :: t => -(numeral 10 t : Int)
    | 101 :: 43 :: t => numeral 10 t
    | _ => 0
  (numeral 10 (ip ++ fp), e - fp.length)

/-- The number that a decimal writes: sign, `n`, `e`. -/
def decimal (s : Bytes) : Bool × Nat × Int :=
  match s with
  | 45 :: t => (true, unsigned t)
  | s => (false, unsigned s)

end Spec.Print
