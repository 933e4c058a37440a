import Verif.Proofs.DemoVm
/-!
# C27 Expressions evaluate as written

`Spec.Lang.evalE` is the meaning of expressions: operands left to right, each once, no stack and no code. The theorems say that
the bytes the compiler emits, run by the machine, compute that meaning, for every expression the parser accepts except those
listed in `Spec.LangWf`. The operations on values are arbitrary functions with arbitrary effects on the rest of the world, so an
operand evaluated twice, not at all or out of order would show.
-/
namespace Snek.Lang
open Store (Val)
open Snek.Vm

section
variable {σ : Type} {P : Prim σ} {conv : BitVec 32 → BitVec 8} {defs : Nat → FunDef}

/-- An expression typed at the prompt: the run ends with the expression's value, and the globals and the world are what
evaluation leaves. -/
theorem C27_prompt (hC : Compiled P conv defs) {l : Nat} {e : Expr} (wf : CmdWf P.W conv (.seq (.line l) (.expr e)))
    (E : End σ) {n : Nat} {v : Val} {s : St σ} (h : evalE P defs n 0 e ⟨⟨E.globals, []⟩, E.w⟩ = .ok v s) :
    EndsWith P (start (emitCommand P.W conv (.seq (.line l) (.expr e))) [] E) v s.fr.globals s.w := by
  have := raw_exprCommand hC wf E n
  rw [h] at this
  obtain ⟨vm', h1, h2⟩ := this
  exact ⟨vm', _, h1, h2⟩

/-- If the evaluation fails, the run is stopped by an error at that point: what was done before is done, nothing after. -/
theorem C27_prompt_error (hC : Compiled P conv defs) {l : Nat} {e : Expr} (wf : CmdWf P.W conv (.seq (.line l) (.expr e)))
    (E : End σ) {n : Nat} {g w} (h : evalE P defs n 0 e ⟨⟨E.globals, []⟩, E.w⟩ = .err g w) :
    StopsWith P (start (emitCommand P.W conv (.seq (.line l) (.expr e))) [] E) g w := by
  have := raw_exprCommand hC wf E n
  rw [h] at this
  obtain ⟨vm', ⟨g', w', ln⟩, h1, h2, rfl, rfl⟩ := this
  exact ⟨vm', ln, h1, h2⟩

/-- An expression anywhere in a program: whatever code surrounds it, whatever operands are pending and whoever called the
running function, the machine gets to the end of the expression's code with the value in the accumulator (and pushed, if the
expression is an operand), the pending operands as they were, the callers as they were, and variables and world as evaluation
leaves them. -/
theorem C27_in_context (hC : Compiled P conv defs) {vm : Vm σ} {e : Expr} {z p after} (wf : WfE P.W z e)
    (hat : AtExpr P.W conv vm e p after) (hp : vm.pend = false) (hcap : vm.stack.length ≤ P.cap)
    (hroom : p = true → vm.stack.length < P.cap) {n : Nat} {v : Val} {s : St σ}
    (h : evalE P defs n vm.stack.length e ⟨visible vm.fr, vm.w⟩ = .ok v s) :
    ∃ vm', Steps P vm vm' ∧ SameActivation vm vm' ∧ vm'.ip = after ∧ vm'.acc = v ∧
      vm'.stack = (if p then v :: vm.stack else vm.stack) ∧ visible vm'.fr = s.fr ∧ vm'.w = s.w ∧ vm'.pend = false := by
  have := raw_expr hC wf hat hp hcap n
  rw [h] at this
  obtain ⟨vm', h1, h2⟩ := this
  exact ⟨vm', h1, postE_raw h2 hroom⟩

/-- The same when evaluation fails. -/
theorem C27_in_context_error (hC : Compiled P conv defs) {vm : Vm σ} {e : Expr} {z p after} (wf : WfE P.W z e)
    (hat : AtExpr P.W conv vm e p after) (hp : vm.pend = false) (hcap : vm.stack.length ≤ P.cap) {n : Nat} {g w}
    (h : evalE P defs n vm.stack.length e ⟨visible vm.fr, vm.w⟩ = .err g w) : StopsWith P vm g w := by
  have := raw_expr hC wf hat hp hcap n
  rw [h] at this
  obtain ⟨vm', ⟨g', w', ln⟩, h1, h2, rfl, rfl⟩ := this
  exact ⟨vm', ln, h1, h2⟩

end

/-! ## The hypotheses can be met -/

namespace Demo

/-- `fact(3) - 1` at the prompt gives 5. -/
example : ∃ g, EndsWith P (start (emitCommand 2 (fun _ => 0) (.seq (.line 1) (.expr (.binary .minus
    (.call (.name 5) (.cons (.num (lit 3)) .nil) .nil) (.num (lit 1)))))) [] ⟨globals, [], 0⟩) (num 5) g [] := by
  have hv : value (evalE P defs 40 0 (.binary .minus (.call (.name 5) (.cons (.num (lit 3)) .nil) .nil) (.num (lit 1)))
      ⟨⟨globals, []⟩, []⟩) = some (num 5, []) := by decide +kernel
  obtain ⟨s, h1, h2⟩ := value_ok hv
  have := C27_prompt (l := 1) compiled ⟨by
    simp [WfS, WfE, WfArgs, WfNamed, Demo.P, prim, Exprs.length, Named.length]; decide +kernel, rfl, by decide +kernel⟩
    ⟨globals, [], 0⟩ h1
  rw [h2] at this
  exact ⟨_, this⟩

/-- `[print(1), print(2)]`: the output is 1, 2. -/
example : ∃ v g, EndsWith P (start (emitCommand 2 (fun _ => 0) (.seq (.line 1) (.expr (.build .list
    (.cons (.call (.name 1) (.cons (.num (lit 1)) .nil) .nil) (.cons (.call (.name 1) (.cons (.num (lit 2)) .nil) .nil) .nil))))))
    [] ⟨globals, [], 0⟩) v g [num 1, num 2] := by
  have hv : (value (evalE P defs 40 0 (.build .list (.cons (.call (.name 1) (.cons (.num (lit 1)) .nil) .nil)
      (.cons (.call (.name 1) (.cons (.num (lit 2)) .nil) .nil) .nil))) ⟨⟨globals, []⟩, []⟩)) =
      some ((.list 16), [num 1, num 2]) := by decide +kernel
  obtain ⟨s, h1, h2⟩ := value_ok hv
  have := C27_prompt (l := 1) compiled ⟨by
    simp [WfS, WfE, WfArgs, WfNamed, Demo.P, prim, Exprs.length, Named.length]; decide +kernel, rfl, by decide +kernel⟩
    ⟨globals, [], 0⟩ h1
  rw [h2] at this
  exact ⟨_, _, this⟩

/-- `print(1) + undefined`: 1 is printed, then the run stops. -/
example : ∃ g, StopsWith P (start (emitCommand 2 (fun _ => 0) (.seq (.line 1) (.expr (.binary .plus
    (.call (.name 1) (.cons (.num (lit 1)) .nil) .nil) (.name 77))))) [] ⟨globals, [], 0⟩) g [num 1] := by
  have hv : errOut (evalE P defs 40 0 (.binary .plus (.call (.name 1) (.cons (.num (lit 1)) .nil) .nil) (.name 77))
      ⟨⟨globals, []⟩, []⟩) = some [num 1] := by decide +kernel
  obtain ⟨g, h1⟩ := errOut_err hv
  exact ⟨_, C27_prompt_error (l := 1) compiled ⟨by
    simp [WfS, WfE, WfArgs, WfNamed, Demo.P, prim, Exprs.length, Named.length]; decide +kernel, rfl, by decide +kernel⟩
    ⟨globals, [], 0⟩ h1⟩

/-- `fact(2)` as an operand in a function, with an operand pending and a caller waiting. -/
example : ∃ vm' : Vm Log, vm'.acc = num 2 ∧ vm'.stack = [num 2, num 7] ∧ Steps P
    ⟨encodeAll 2 [(.line 1, false)] ++ (emitE 2 (fun _ => 0) (.call (.name 5) (.cons (.num (lit 2)) .nil) .nil)
      ⟨encodeAll 2 [(.line 1, false)], 0, 0⟩).pushPrev.bytes.drop 3, 3, num 0, [num 7],
      ⟨globals, [⟨[⟨num 4, 9⟩], [68, 68], 1⟩]⟩, 0, [], false⟩ vm' := by
  let vm : Vm Log := ⟨encodeAll 2 [(.line 1, false)] ++ (emitE 2 (fun _ => 0) (.call (.name 5) (.cons (.num (lit 2)) .nil) .nil)
      ⟨encodeAll 2 [(.line 1, false)], 0, 0⟩).pushPrev.bytes.drop 3, 3, num 0, [num 7],
      ⟨globals, [⟨[⟨num 4, 9⟩], [68, 68], 1⟩]⟩, 0, [], false⟩
  have hv : value (evalE P defs 40 1 (.call (.name 5) (.cons (.num (lit 2)) .nil) .nil) ⟨visible vm.fr, vm.w⟩) =
      some (num 2, []) := by decide +kernel
  obtain ⟨s, h1, h2⟩ := value_ok hv
  have hat : AtExpr P.W (fun _ => 0) vm (.call (.name 5) (.cons (.num (lit 2)) .nil) .nil) true (vm.code.length) :=
    ⟨⟨encodeAll 2 [(.line 1, false)], 0, 0⟩, [(.line 1, false)], [], rfl, fun _ => rfl, .inl (by simp), rfl, by decide +kernel,
      by decide +kernel, by decide +kernel⟩
  obtain ⟨vm', h, _, _, h3, h4, _⟩ := C27_in_context (z := false) compiled (by
    simp [WfE, WfArgs, WfNamed, Demo.P, prim, Exprs.length, Named.length]; decide +kernel) hat rfl (by decide) (by decide) h1
  exact ⟨vm', h3, h4, h⟩

end Demo
end Snek.Lang
