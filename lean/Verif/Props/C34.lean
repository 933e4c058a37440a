import Verif.Proofs.VmCalls
import Verif.Proofs.DemoVm
/-!
# C34 Constants survive compilation

Numbers from -128 to 127 are compiled to a one-byte operand if the C conversion from float to `int8_t` and back gives the number
again; others to four bytes. The conversion is an arbitrary function (`conv`): for values out of range C leaves it undefined.
The only number that would not survive is -0; no literal denotes it (the lexer's numbers have no sign, and `-0` is an operator
applied to 0).
-/
namespace Snek.Lang
open Store (Val)
open Snek.Vm

section
variable {σ : Type} {P : Prim σ} {conv : BitVec 32 → BitVec 8} {defs : Nat → FunDef}

/-- A literal anywhere in a program, in any state, yields its value. -/
theorem C34_literal (hC : Compiled P conv defs) {vm : Vm σ} {u : BitVec 32} {p after} (hu : u ≠ 0x80000000#32)
    (hat : AtExpr P.W conv vm (.num u) p after) (hp : vm.pend = false) (hcap : vm.stack.length < P.cap) :
    Yields P vm p after (.num u) ⟨visible vm.fr, vm.w⟩ :=
  yields_of (z := false) (defs := defs) hC (by simp only [WfE]; exact hu) hat hp hcap (n := 1) (by simp [evalE])

/-- A string literal yields the string it was given when it was read. -/
theorem C34_string_literal (hC : Compiled P conv defs) {vm : Vm σ} {o : Nat} {p after} (ho : o < 256 ^ P.W)
    (hat : AtExpr P.W conv vm (.str o) p after) (hp : vm.pend = false) (hcap : vm.stack.length < P.cap) :
    Yields P vm p after (.str o) ⟨visible vm.fr, vm.w⟩ :=
  yields_of (z := false) (defs := defs) hC (by simp only [WfE]; exact ho) hat hp hcap (n := 1) (by simp [evalE])

/-- At the prompt: a literal is echoed as it is. -/
theorem C34_prompt (hC : Compiled P conv defs) {l : Nat} {u : BitVec 32} (hu : u ≠ 0x80000000#32) (hl : l < 256 ^ P.W)
    (hsz : (emitCommand P.W conv (.seq (.line l) (.expr (.num u)))).length < 256 ^ P.W) (E : End σ) :
    EndsWith P (start (emitCommand P.W conv (.seq (.line l) (.expr (.num u)))) [] E) (.num u) E.globals E.w := by
  have := raw_exprCommand (defs := defs) hC ⟨by simp only [WfS, WfE]; exact ⟨hl, hu⟩, rfl, hsz⟩ E 1
  simp only [evalE] at this
  obtain ⟨vm', h1, h2⟩ := this
  exact ⟨vm', _, h1, h2⟩

end

/-! ## The hypotheses can be met -/

namespace Demo

/-- Both encodings: 5 and 0.1. -/
example : ∃ after, Yields P (at_ (.num (lit 5))) false after (num 5) ⟨⟨globals, []⟩, []⟩ :=
  ⟨_, C34_literal compiled (by decide +kernel) (at_expr (by decide +kernel)) rfl (by decide)⟩
example : ∃ after, Yields P (at_ (.num 0x3dcccccd#32)) false after (.num 0x3dcccccd#32) ⟨⟨globals, []⟩, []⟩ :=
  ⟨_, C34_literal compiled (by decide +kernel) (at_expr (by decide +kernel)) rfl (by decide)⟩

end Demo
end Snek.Lang
