/-
What a garbage collection may do, said without reference to how the collector
works: reachability, well-formed pools, and "the same object graph at other
addresses".
-/
import Verif.Model.Gc

namespace Spec
open Snek.Gc HeapObj

/-- Rewriting references does what its name says: it changes nothing but the
references, and each of them to its image. -/
class LawfulHeapObj (β : Type) [HeapObj β] : Prop where
  size_rename : ∀ (f : Nat → Nat) (b : β), size (rename f b) = size b
  ptrs_rename : ∀ (f : Nat → Nat) (b : β), ptrs (rename f b) = (ptrs b).map f
  rename_congr : ∀ (f g : Nat → Nat) (b : β), (∀ p ∈ ptrs b, f p = g p) → rename f b = rename g b
  rename_id : ∀ (b : β), rename id b = b
  rename_comp : ∀ (f g : Nat → Nat) (b : β), rename f (rename g b) = rename (fun x => f (g x)) b

variable {β : Type} [HeapObj β]

/-- The objects a program can still get at: named by a root, or by a reference in
an object it can get at. -/
inductive Reach (h : Heap β) (roots : List Nat) : Nat → Prop
  | root {o} : o ∈ roots → Reach h roots o
  | step {o b p} : Reach h roots o → h o = some b → p ∈ ptrs b → Reach h roots p

/-- Size of the object at an offset. -/
def sizeAt (h : Heap β) (o : Nat) : Nat :=
  match h o with
  | some b => size b
  | none => 0

/-- A pool in order: every reachable reference names an object inside the used part
of the pool, and no two reachable objects overlap.  Nothing is said about the
garbage. -/
structure WF (h : Heap β) (roots : List Nat) (top : Nat) : Prop where
  obj : ∀ o, Reach h roots o → ∃ b, h o = some b ∧ 0 < size b ∧ o + size b ≤ top
  sep : ∀ o o', Reach h roots o → Reach h roots o' → o < o' → o + sizeAt h o ≤ o'

/-- `s'` holds the object graph of `s`, with every object moved from `o` to `ρ o` and
every reference (in roots and in objects) rewritten accordingly. -/
structure Renamed (ρ : Nat → Nat) (h : Heap β) (roots : List Nat) (h' : Heap β) (roots' : List Nat) : Prop where
  rts : roots' = roots.map ρ
  objs : ∀ o b, Reach h roots o → h o = some b → h' (ρ o) = some (rename ρ b)

/-- What holds of the pool between any two operations: it is well formed, its used
part is inside the pool, and the part packed by the last full collection ends
between objects.  `C14_always` shows that every state a program can get into is of
this kind. -/
structure PoolOK (pool : Nat) (s : St β) : Prop where
  wf : WF s.heap s.roots s.top
  htop : s.top ≤ pool
  hlast : s.lastTop ≤ s.top
  hold : ∀ o, Reach s.heap s.roots o → o < s.lastTop → o + sizeAt s.heap o ≤ s.lastTop

open Classical in
/-- The reachable objects at or above `low`, in address order. -/
noncomputable def liveFrom (pool : Nat) (h : Heap β) (roots : List Nat) (low : Nat) : List Nat :=
  (List.range pool).filter (fun o => decide (Reach h roots o ∧ low ≤ o))

/-- Total size of a list of objects. -/
def total (h : Heap β) (l : List Nat) : Nat := (l.map (sizeAt h)).sum

/-- Where an object at or above `low` ends up when the live objects are packed, in
order and without gaps, starting at `low`: after all those before it. -/
noncomputable def packed (pool : Nat) (h : Heap β) (roots : List Nat) (low : Nat) (o : Nat) : Nat :=
  if o < low then o
  else low + total h ((liveFrom pool h roots low).filter (· < o))

end Spec
