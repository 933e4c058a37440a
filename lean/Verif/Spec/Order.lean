import Verif.Model.Cmp
/-!
# What comparison should mean

The value type is the model's (`Tree`); the orderings below are written from the language description.
-/
namespace Spec
open Snek

/-- Magnitude of an IEEE single-precision number in units of 2^-149 (the smallest subnormal), from its 31 low bits:
exponent field `m / 2^23`, fraction field `m % 2^23`. Infinity (exponent 255, fraction 0) comes out above every finite
number. -/
def f32mag (m : Nat) : Nat :=
  if m / 2 ^ 23 = 0 then m % 2 ^ 23 else (2 ^ 23 + m % 2 ^ 23) * 2 ^ (m / 2 ^ 23 - 1)

/-- Value of an IEEE single-precision number in units of 2^-149; bit 31 is the sign. -/
def f32val (u : BitVec 32) : Int :=
  if u.toNat < 2 ^ 31 then (f32mag u.toNat : Int) else -(f32mag (u.toNat - 2 ^ 31) : Int)

/-- Values that are not containers, numbers being in stored form (the only NaN pattern is the canonical one, which is what
arithmetic produces). -/
def Scalar : Tree → Prop
  | .num u => isNanF u = true → u = NAN_U
  | .list _ _ => False
  | _ => True

mutual
/-- Equality of values: equal numbers (the two zeros are equal, NaN patterns are compared as words), equal strings, same
kind of container with equal elements, same function. -/
def Same : Tree → Tree → Prop
  | .num a, .num b => a = b ∨ (isNanF a = false ∧ isNanF b = false ∧ f32val a = f32val b)
  | .str a, .str b => a = b
  | .list t l, .list t' l' => t = t' ∧ SameList l l'
  | .func a, .func b => a = b
  | .builtin a, .builtin b => a = b
  | _, _ => False
def SameList : List Tree → List Tree → Prop
  | [], [] => True
  | a :: l, b :: l' => Same a b ∧ SameList l l'
  | _, _ => False
end

mutual
/-- Numbers in stored form at every depth. -/
def Stored : Tree → Prop
  | .num u => isNanF u = true → u = NAN_U
  | .list _ l => StoredList l
  | _ => True
def StoredList : List Tree → Prop
  | [] => True
  | a :: l => Stored a ∧ StoredList l
end

/-- Strict lexicographic order over `lt`, a proper prefix first. -/
inductive Lex (lt eq : α → α → Prop) : List α → List α → Prop
  | nil (b l') : Lex lt eq [] (b :: l')
  | head (a l b l') : lt a b → Lex lt eq (a :: l) (b :: l')
  | tail (a l b l') : eq a b → Lex lt eq l l' → Lex lt eq (a :: l) (b :: l')

/-- Kind order: the fixed order in which values of different kinds compare. -/
def kindRank : Tree → Nat
  | .builtin _ => 0 | .list _ _ => 1 | .str _ => 2 | .func _ => 3 | .num _ => 4

/-- Strict order on values: numbers by value (NaN above all), strings lexicographically by byte, containers of the same
kind lexicographically with a proper prefix first, otherwise by kind. -/
inductive Less : Tree → Tree → Prop
  | num (a b) : isNanF a = false → isNanF b = false → f32val a < f32val b → Less (.num a) (.num b)
  | nan (a b) : isNanF a = false → b = NAN_U → Less (.num a) (.num b)
  | str (a b) : Lex (· < ·) (· = ·) a b → Less (.str a) (.str b)
  | list (t l l') : Lex Less Same l l' → Less (.list t l) (.list t l')
  | ltype (t t' l l') : t.num < t'.num → Less (.list t l) (.list t' l')
  | func (a b) : a < b → Less (.func a) (.func b)
  | builtin (a b) : a < b → Less (.builtin a) (.builtin b)
  | kind (a b) : kindRank a < kindRank b → Less a b

mutual
/-- The case excluded from the partial theorem on containers: somewhere on the way to the first difference, the left list
is a proper prefix of the right one. -/
def PrefixClash : Tree → Tree → Prop
  | .list t l, .list t' l' => t = t' ∧ PrefixClashList l l'
  | _, _ => False
def PrefixClashList : List Tree → List Tree → Prop
  | [], _ :: _ => True
  | a :: l, b :: l' => PrefixClash a b ∨ (Same a b ∧ PrefixClashList l l')
  | _, _ => False
end

end Spec
