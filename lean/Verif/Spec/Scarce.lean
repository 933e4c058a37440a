import Verif.Model.Scarce
import Verif.Spec.Room
/-! # What a user sees when memory runs out while a program is read -/
namespace Snek.Scarce
open Snek.Vm Snek.Pda

/-- The state the parser stopped in. -/
def MOut.st : MOut → MSt
  | .next _ m | .done m | .syntax m | .oom m | .fault m | .error m => m

/-- The same result, of the parser that has memory enough. -/
def MOut.same : MOut → Res → Prop
  | .done m, r => r = .done m.s
  | .syntax m, r => r = .syntax m.s
  | .oom m, r => r = .oom m.s
  | .fault m, r => r = .fault m.s
  | _, _ => False

/-- What is passed on after the last complete command: nothing, or a statement of which nothing but its line number is executed, or a
function. -/
inductive Last (W : Nat) : List Code → Prop
  | nothing : Last W []
  | line (c : List UInt8) (n : Nat) (h : ranAborted W c = [.line n]) : Last W [.stat c]
  | func (id : Nat) (fs : List Nat) (nn : Nat) (c : List UInt8) : Last W [.fn id fs nn c]

end Snek.Scarce
