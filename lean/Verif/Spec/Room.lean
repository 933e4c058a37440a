import Verif.Model.Pda
/-! Runs of the parser that never lose a value. -/
namespace Snek.Pda
open Snek.Parse

/-- In the first `n` steps of the parser there is always room for two more values on its value stack (no action pushes more). -/
def roomy (z : Sizes) (conv : BitVec 32 → BitVec 8) (P : Nat) : Nat → List Sym → PSt → Bool
  | 0, _, _ => true
  | n+1, stk, s => decide (s.vals.length + 2 ≤ z.V) &&
    match step z conv P stk s with
    | .next stk s => roomy z conv P n stk s
    | _ => true

/-- The state the parser stopped in. -/
def Res.st : Res → PSt
  | .next _ s | .done s | .syntax s | .oom s | .fault s => s

end Snek.Pda
