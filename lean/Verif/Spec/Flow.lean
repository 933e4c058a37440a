import Verif.Model.Vm
import Verif.Spec.Strings
/-!
# Control flow: what code is sound

In terms of the bytes of a code block and of what the machine reads at an offset (`fetch`).
-/
namespace Spec.Flow
open Snek Snek.Vm Snek.Lang

/-- Offsets at which an instruction starts: the first one, and the one after each instruction. -/
inductive Boundary (W : Nat) (C : List UInt8) : Nat → Prop
  | first : Boundary W C 0
  | next {ip : Nat} : Boundary W C ip → ip < C.length → Boundary W C (fetch W C ip).2.2

/-- The operand of an instruction that is loaded into the program counter, if any. -/
def target : Ins → Option Nat
  | .chain _ t | .branch t | .branchTrue t | .branchFalse t => some t
  | .rangeStep t _ _ | .inStep t _ _ => some t
  | _ => none

/-- Every instruction lies in the block with its operands, and jumps go to instructions or out of the block (which ends the
block: `while (ip < snek_code->size)`). -/
def Sound (W : Nat) (C : List UInt8) : Prop :=
  ∀ ip, Boundary W C ip → ip < C.length →
    (fetch W C ip).2.2 ≤ C.length ∧
    ∀ t, target (fetch W C ip).1 = some t → Boundary W C t ∨ C.length ≤ t

/-- String constants in a function. -/
def strsF (f : FunDef) : List Nat := strsN f.defaults ++ strsS f.body

/-- The string constants the machine can load from a block are among `l`. -/
def StringsIn (W : Nat) (C : List UInt8) (l : List Nat) : Prop :=
  ∀ ip, Boundary W C ip → ip < C.length → ∀ o, (fetch W C ip).1 = .string o → o ∈ l

end Spec.Flow
