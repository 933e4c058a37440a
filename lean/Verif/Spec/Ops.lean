import Verif.Spec.Store
import Verif.Spec.Order
import Verif.Spec.Number
import Verif.Model.Machine
/-!
# What the operators of the running machine give

The machine of `Model/Machine` has a world: objects in memory, what was printed, the devices, and whether memory was accessed outside of an
object. Values in it are read as trees (`Store.Unfolds`, Spec/Store and Proofs/HeapCmp).
-/
namespace Snek.Machine
open Store (Val S)
open Spec

variable {κ : Type}

/-- What a comparison asks of two values. -/
def Says : Vm.CmpOp → Tree → Tree → Prop
  | .eq, a, b => Same a b
  | .ne, a, b => ¬ Same a b
  | .lt, a, b => Less a b
  | .gt, a, b => Less b a
  | .le, a, b => Less a b ∨ Same a b
  | .ge, a, b => Less b a ∨ Same a b

/-- The same thing: equal numbers, strings of the same characters, otherwise the same object. -/
def Identical (objs : List Store.Obj) (a b : Val) : Prop :=
  a = b ∨ (∃ u v, a = .num u ∧ b = .num v ∧ Same (.num u) (.num v)) ∨
    (∃ i j s, a = .str i ∧ b = .str j ∧ objs[i]? = some (.str s) ∧ objs[j]? = some (.str s))

/-- Objects, output and devices are as before and memory was accessed within objects only. -/
structure Quiet (w w' : World κ) : Prop where
  objs : w'.st.objs = w.st.objs
  out : w'.out = w.out
  dev : w'.dev = w.dev
  wild : w'.wild = w.wild

/-- Nothing that existed changed: there may be new objects. -/
structure Adds (w w' : World κ) : Prop where
  objs : w.st.objs <+: w'.st.objs
  out : w'.out = w.out
  dev : w'.dev = w.dev
  wild : w'.wild = w.wild

/-- A new string with these characters, or an error when the allocator refuses. -/
def GivesStr (w : World κ) (b : List UInt8) (x : Option Val × World κ) : Prop :=
  Adds w x.2 ∧ ((x.1 = none ∧ w.st.mem w.st.clock (b.length + 1) = false) ∨
    ∃ k, x.1 = some (.str k) ∧ w.st.objs.length ≤ k ∧ x.2.st.bytes k = some b)

/-- A list of this type with these elements, which did not exist before (an empty tuple may be shared), or an error when the
allocator refuses. -/
def GivesList (w : World κ) (t : LType) (l : List Val) (x : Option Val × World κ) : Prop :=
  Adds w x.2 ∧ ((x.1 = none ∧ w.st.Short) ∨
    ∃ k, x.1 = some (.list k) ∧ x.2.st.elems k = some (t, l) ∧ (w.st.objs.length ≤ k ∨ (t = .tuple ∧ l = [])))

/-- An error that changes nothing. -/
def Refused (w : World κ) (x : Option Val × World κ) : Prop := x.1 = none ∧ Quiet w x.2

/-- This value, and nothing changes. -/
def Gives (w : World κ) (v : Val) (x : Option Val × World κ) : Prop := x.1 = some v ∧ Quiet w x.2

end Snek.Machine
