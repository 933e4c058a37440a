import Verif.Model.Machine
import Verif.Spec.Store
/-!
# What it means that memory is in order
-/
namespace Snek.Machine
open Store (Val S Ok VOk)

variable {κ : Type}

/-- The builtin value at this offset is a function of the table. -/
def Function (C : Cfg κ) (off : Nat) : Prop := ∃ x, off = 4 * x ∧ x < C.builtinMax ∧ ∀ c, C.table x ≠ .const c

/-- A proper value: a number, a reference to an existing string or list, a function, a builtin function, or None. -/
def Proper (C : Cfg κ) (s : S) (v : Val) : Prop := VOk s v ∧ ∀ off, v = .builtin off → Function C off ∨ v = Val.none

/-- Memory is in order: nothing outside of objects was accessed, the lists have the storage they claim, and every word in it is a proper
value. -/
structure InOrder (C : Cfg κ) (w : World κ) : Prop where
  tame : w.wild = false
  storage : Ok w.st
  words : ∀ i o, w.st.lst i = some o → ∀ v ∈ o.data, Proper C w.st v

/-- What a program must not do: build something larger than offsets can express (C13), call None (or name number 0, which is not given
to any name), or process a value that contains itself recursively. -/
def Fine (C : Cfg κ) : Ev → Prop
  | .op o s => o.fits (env C) s
  | .call off => off ≠ 0x7ffffc ∧ off ≠ 0
  | .text b => b.length + 1 < 2 ^ C.A.offBits
  | .endless _ => False

/-- Nothing of this happened so far. -/
def Clean (C : Cfg κ) (w : World κ) : Prop := ∀ ev ∈ w.hist, Fine C ev

end Snek.Machine
