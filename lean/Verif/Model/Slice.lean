import Verif.Model.Arch
/-!
# Slices

Models `snek_slice` (snek-exec.c:486-573), `snek_slice_test/step` (snek.h:884-895), `snek_list_slice`
(snek-list.c:320-338) and `snek_string_slice` (snek-string.c:81-97).

Simplifications: the container is a Lean `List` (its heap storage is the subject of the memory model); memory allocation
succeeds; the operands have already been converted from numbers to `snek_soffset_t`.
-/
namespace Snek

/-- `snek_slice_t`, snek.h:265-277. -/
structure SliceT where
  count : Nat
  pos : Nat
  stride : Int
  identity : Bool
  deriving DecidableEq, Repr

/-- `soffset_sgn`, snek-exec.c:477-480. -/
def soffsetSgn (s : Int) : Int := (if s > 0 then 1 else 0) - (if s < 0 then 1 else 0)

/-- Negative positions are relative to the end: snek-exec.c:519-524. -/
def sliceFromEnd (A : Arch) (len p : Int) : Option Int :=
  if p < 0 then (A.int (len + p)).map A.toSoff else some p

/-- snek-exec.c:526-546, the start value. -/
def sliceStart (A : Arch) (len start stride : Int) : Option Int :=
  if stride > 0 then some (if start = A.soffNone ∨ start < 0 then 0 else start)
  else if start = A.soffNone ∨ start ≥ len then (A.int (len - 1)).map A.toSoff else some start

/-- snek-exec.c:526-546, the end value. -/
def sliceEnd (A : Arch) (len stop stride : Int) : Int :=
  if stride > 0 then (if stop = A.soffNone ∨ stop > len then len else stop)
  else if stop = A.soffNone ∨ stop < -1 then -1 else stop

/-- `snek_slice` lines 519-560: from length and the three (already defaulted to `SNEK_SOFFSET_NONE`/1) operands to the
`snek_slice_t`. `none` is undefined behaviour (signed overflow). `Int.tdiv` is C division. -/
def sliceCalc (A : Arch) (len start stop stride : Int) : Option SliceT := do
  let start ← sliceFromEnd A len start
  let stop ← sliceFromEnd A len stop
  let start ← sliceStart A len start stride
  let stop := sliceEnd A len stop stride
  let t ← A.int (stop + stride)
  let t ← A.int (t - soffsetSgn stride)
  let t ← A.int (t - start)
  let count := A.toSoff (Int.tdiv t stride)
  let count := if count < 0 then 0 else count
  return { count := A.toOff count, pos := A.toOff start, stride := stride,
           identity := decide (start = 0 ∧ count = len ∧ stride = 1) }

/-- The loop of `snek_list_slice`/`snek_string_slice` with `snek_slice_test`/`snek_slice_step` (snek-list.c:335-336,
snek-string.c:93-94, snek.h:884-895). `none`: a read outside the container. -/
def sliceLoop (A : Arch) (data : List α) : (count pos : Nat) → (stride : Int) → Option (List α)
  | 0, _, _ => some []
  | n + 1, pos, stride => do
    let x ← data[pos]?
    let rest ← sliceLoop A data n (A.toOff (pos + stride)) stride
    return x :: rest

/-- Outcome of the slice operator. -/
inductive SliceR (α : Type) | ok (l : List α) | stepError | undefinedBehaviour
  deriving DecidableEq, Repr

/-- `snek_slice` on a container with elements `data`; absent operands are `none` (snek-exec.c:492-516 and 562-572).
For an identity slice of a tuple or string the object itself is returned. -/
def snekSlice (A : Arch) (data : List α) (start stop stride : Option Int) : SliceR α :=
  let stride := stride.getD 1
  if stride = 0 then .stepError else
  match sliceCalc A data.length (start.getD A.soffNone) (stop.getD A.soffNone) stride with
  | none => .undefinedBehaviour
  | some s =>
    if s.identity then .ok data else
    match sliceLoop A data s.count s.pos s.stride with
    | none => .undefinedBehaviour
    | some l => .ok l

end Snek
