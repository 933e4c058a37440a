/-!
# What a Python slice selects

Independent of the code: positions are described by a condition on the index, not by a loop.
-/
namespace Spec

/-- Python: a negative bound counts from the end. -/
def fromEnd (len : Nat) (p : Int) : Int := if p < 0 then len + p else p

/-- The positions selected by `[start:stop:stride]` in a sequence of length `len`, in the order they are delivered.
Forward: every `stride`-th index from `max start 0` (default 0) that is below `stop` (default `len`).
Backward: every `-stride`-th index downwards from `min start (len-1)` (default `len-1`) that is above `stop` (default -1). -/
def sliceIndices (len : Nat) (start stop : Option Int) (stride : Int) : List Nat :=
  if stride > 0 then
    let s : Int := match start with | none => 0 | some p => max (fromEnd len p) 0
    let e : Int := match stop with | none => len | some p => fromEnd len p
    (List.range len).filter fun i : Nat => s ≤ (i : Int) ∧ (i : Int) < e ∧ ((i : Int) - s) % stride = 0
  else
    let s : Int := match start with | none => len - 1 | some p => min (fromEnd len p) (len - 1)
    let e : Int := match stop with | none => -1 | some p => fromEnd len p
    ((List.range len).filter fun i : Nat => (i : Int) ≤ s ∧ e < (i : Int) ∧ (s - (i : Int)) % (-stride) = 0).reverse

/-- The slice: the elements at those positions. -/
def slice (data : List α) (start stop : Option Int) (stride : Int) : List α :=
  (sliceIndices data.length start stop stride).filterMap (data[·]?)

end Spec
