import Verif.Model.Store
/-!
# Comparison of values in memory

Models `snek_poly_cmp` (snek-poly.c:78-107), `snek_list_cmp` (snek-list.c:252-271) and `snek_mutable` (snek-list.c:143-157) on
objects in memory. The recursion of the code is bounded by `n`; `none` means that it needs more (on a list that contains
itself it never ends) or follows a bad reference.
-/
namespace Snek.Store

/-- The loop and the final test of `snek_list_cmp`, snek-list.c:260-270. -/
def hcmpLoop (f : Val → Val → Option Int) : List Val → List Val → Option Int
  | [], [] => some 0
  | [], _ :: _ => some 1
  | _ :: _, [] => some 1
  | a :: l, b :: l' => do
    let d ← f a b
    if d ≠ 0 then return d else hcmpLoop f l l'

/-- `snek_poly_cmp(a, b, false)` with `snek_list_cmp`. -/
def hcmp (objs : List Obj) : Nat → Val → Val → Option Int
  | 0, _, _ => Option.none
  | n + 1, a, b =>
    match a, b with
    | .num a, .num b => some (numCmp a b)
    | .str i, .str j =>
      match objs[i]?, objs[j]? with
      | some (.str a), some (.str b) => some (sgn (strcmp a b))
      | _, _ => Option.none
    | .list i, .list j =>
      match objs[i]?, objs[j]? with
      | some (.list a), some (.list b) =>
        if a.type.num - b.type.num ≠ 0 then some (a.type.num - b.type.num)
        else hcmpLoop (hcmp objs n) (a.data.take a.size) (b.data.take b.size)
      | _, _ => Option.none
    | .func a, .func b => some (natCmp a b)
    | .builtin a, .builtin b => some (natCmp a b)
    | a, b => some ((a.type.num : Int) - b.type.num)

/-- The loop of `snek_mutable`, snek-list.c:152-156. -/
def hmutLoop (f : Val → Option Bool) : List Val → Option Bool
  | [] => some false
  | a :: l => do if ← f a then return true else hmutLoop f l

/-- `snek_mutable`, snek-list.c:143-157. -/
def hmut (objs : List Obj) : Nat → Val → Option Bool
  | 0, _ => Option.none
  | n + 1, .list i =>
    match objs[i]? with
    | some (.list a) => if a.type.readonly then hmutLoop (hmut objs n) (a.data.take a.size) else some true
    | _ => Option.none
  | _ + 1, _ => some false

/-- The operations of the code on target `A`. A comparison that does not return has no result here (0 stands for it). -/
def Env.real (A : Arch) (powf : BitVec 32 → BitVec 32 → BitVec 32) (fmt : List Obj → List UInt8 → Val → Option (Option (List UInt8)))
    (any : BinOp → BitVec 32 → BitVec 32 → BitVec 32) (anyOff : BitVec 32 → Int) : Env where
  A := A
  cmp objs a b := (hcmp objs (objs.length + 1) a b).getD 0
  isMut objs a := (hmut objs (objs.length + 1) a).getD true
  powf := powf
  fmt := fmt
  any := any
  anyOff := anyOff

end Snek.Store
