import Verif.Model.Poly
/-!
# Comparison of values

Models `snek_poly_cmp` (snek-poly.c:78-107), `snek_list_cmp` (snek-list.c:252-271), `snek_mutable`
(snek-list.c:143-157), `snek_poly_true` (snek-poly.c:109-122), `snek_poly_len` (snek-poly.c:124-143) and the comparison
part of `snek_binary` (snek-exec.c:270-305).

Values are finite trees: the unfolding of a heap value. (A cyclic list has no finite unfolding; on it the C recursion does
not return. The heap-level version is in `Verif.Model.HeapCmp`.)
-/
namespace Snek

/-- `snek_list_type_t`, snek.h:202-208. -/
inductive LType | list | tuple | dict
  deriving DecidableEq, Repr

/-- Numeric value of `snek_list_type_t`. -/
def LType.num : LType → Int
  | .list => 0 | .tuple => 1 | .dict => 2

/-- `snek_list_readonly`, snek.h:1033-1037. -/
def LType.readonly : LType → Bool
  | .tuple => true | _ => false

/-- Finite unfolding of a `snek_poly_t`. `num` holds the float word; `str` the bytes before the terminator; a dictionary
holds its flat key, value, key, value ... array; `func` and `builtin` hold the word's offset (their identity).
`None` and the markers are `builtin`-typed words (snek.h:320-325). -/
inductive Tree where
  | num (u : BitVec 32)
  | str (s : List UInt8)
  | list (t : LType) (l : List Tree)
  | func (off : Nat)
  | builtin (off : Nat)
  deriving Repr

/-- `snek_poly_type` of the word. -/
def Tree.type : Tree → PType
  | .num _ => .float | .str _ => .string | .list _ _ => .list | .func _ => .func | .builtin _ => .builtin

/-- `None` (SNEK_NULL, snek.h:320) as a tree: builtin type, offset bits all ones. -/
def Tree.none : Tree := .builtin 0x7ffffc

/-- Position of a float word on the number line: sign and magnitude of the IEEE pattern (both zeros are 0). -/
def fkey (u : BitVec 32) : Int :=
  if u.toNat < 2 ^ 31 then (u.toNat : Int) else -((u.toNat : Int) - 2 ^ 31)

/-- IEEE `a < b` on bit patterns (false when either is a NaN). -/
def fltF (a b : BitVec 32) : Bool := !isNanF a && !isNanF b && decide (fkey a < fkey b)

/-- C truth value as a number. -/
def b2i (b : Bool) : Int := if b then 1 else 0

/-- Float case of `snek_poly_cmp`, snek-poly.c:89-93. -/
def numCmp (a b : BitVec 32) : Int :=
  let tdiff := b2i (isNan a) - b2i (isNan b)
  if tdiff ≠ 0 then tdiff else b2i (fltF b a) - b2i (fltF a b)

/-- C `strcmp` on NUL-terminated strings: lexicographic on unsigned bytes, the terminator is below every byte. Only the sign
is specified by C and only the sign is used (snek-poly.c:95-96). -/
def strcmp : List UInt8 → List UInt8 → Int
  | [], [] => 0
  | [], _ :: _ => -1
  | _ :: _, [] => 1
  | a :: s, b :: t => if a = b then strcmp s t else if a < b then -1 else 1

/-- `(sdiff > 0) - (sdiff < 0)`, snek-poly.c:96. -/
def sgn (x : Int) : Int := b2i (decide (x > 0)) - b2i (decide (x < 0))

/-- `(b.u < a.u) - (a.u < b.u)`, snek-poly.c:105, on words with the same tag. -/
def natCmp (a b : Nat) : Int := b2i (decide (b < a)) - b2i (decide (a < b))

mutual
/-- `snek_poly_cmp(a, b, false)`, snek-poly.c:78-107. -/
def Tree.cmp : Tree → Tree → Int
  | .num a, .num b => numCmp a b
  | .str a, .str b => sgn (strcmp a b)
  | .list t l, .list t' l' => if t.num - t'.num ≠ 0 then t.num - t'.num else cmpList l l'
  | .func a, .func b => natCmp a b
  | .builtin a, .builtin b => natCmp a b
  | a, b => (a.type.num : Int) - b.type.num
/-- The loop and the final test of `snek_list_cmp`, snek-list.c:261-270. At the end of `a` the result is
`b->size > o`. -/
def cmpList : List Tree → List Tree → Int
  | [], [] => 0
  | [], _ :: _ => 1
  | _ :: _, [] => 1
  | a :: l, b :: l' => if a.cmp b ≠ 0 then a.cmp b else cmpList l l'
end

/-- The six comparison operators, snek.h:82-87. -/
inductive CmpOp | eq | ne | gt | lt | ge | le
  deriving DecidableEq, Repr

/-- `snek_is_nan` on a value: the canonical NaN word. -/
def Tree.isNan : Tree → Bool
  | .num u => Snek.isNan u
  | _ => false

/-- snek-exec.c:273-304 for `op < snek_op_is`. -/
def cmpOp (op : CmpOp) (a b : Tree) : Bool :=
  if a.isNan || b.isNan then op = .ne
  else
    let c := a.cmp b
    match op with
    | .eq => c = 0
    | .ne => c ≠ 0
    | .gt => c > 0
    | .lt => c < 0
    | .ge => c ≥ 0
    | .le => c ≤ 0

mutual
/-- `snek_mutable`, snek-list.c:143-157. -/
def Tree.mutable : Tree → Bool
  | .list t l => if t.readonly then anyMutable l else true
  | _ => false
/-- The element loop of `snek_mutable`, snek-list.c:153-155. -/
def anyMutable : List Tree → Bool
  | [] => false
  | x :: l => x.mutable || anyMutable l
end

/-- `snek_poly_true`, snek-poly.c:109-122. A float is true when it is not equal to 0.0f (a NaN is). -/
def Tree.truth : Tree → Bool
  | .num u => isNanF u || fkey u ≠ 0
  | .list _ l => l.length ≠ 0
  | .str s => s.length ≠ 0
  | _ => false

/-- `snek_poly_len`, snek-poly.c:124-143. -/
def Tree.len : Tree → Nat
  | .str s => s.length
  | .list .dict l => l.length / 2
  | .list _ l => l.length
  | _ => 0

end Snek
