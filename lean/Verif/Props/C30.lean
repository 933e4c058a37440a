import Verif.Proofs.VmCalls
import Verif.Proofs.DemoVm
/-!
# C30 Control flow executes as written

`Spec.Lang.execS` is the meaning of statements (structured: no jumps, no code). The theorems say that the bytes the compiler
emits for a command (any statement tree, see `Spec.LangWf` for the exceptions), run by the machine, do exactly that.
-/
namespace Snek.Lang
open Store (Val)
open Snek.Vm

section
variable {σ : Type} {P : Prim σ} {conv : BitVec 32 → BitVec 8} {defs : Nat → FunDef}

/-- The statements finish: so does the run, with the globals and the world they leave. -/
theorem C30_finishes (hC : Compiled P conv defs) {c : Stmt} (wf : CmdWf P.W conv c) (e : End σ) {n : Nat} {t : St σ}
    (h : execS P defs n 0 0 c ⟨⟨e.globals, []⟩, e.w⟩ = .ok .normal t) :
    ∃ v, EndsWith P (start (emitCommand P.W conv c) [] e) v t.fr.globals t.w := by
  have := raw_command_ends hC wf e n
  rw [h] at this; exact this

/-- A `return` is executed: the run ends there with its value. -/
theorem C30_returns (hC : Compiled P conv defs) {c : Stmt} (wf : CmdWf P.W conv c) (e : End σ) {n : Nat} {t : St σ} {v : Val}
    (h : execS P defs n 0 0 c ⟨⟨e.globals, []⟩, e.w⟩ = .ok (.ret v) t) :
    EndsWith P (start (emitCommand P.W conv c) [] e) v t.fr.globals t.w := by
  have := raw_command_ends hC wf e n
  rw [h] at this; exact this

/-- A statement fails: the run stops there. -/
theorem C30_fails (hC : Compiled P conv defs) {c : Stmt} (wf : CmdWf P.W conv c) (e : End σ) {n : Nat} {g w}
    (h : execS P defs n 0 0 c ⟨⟨e.globals, []⟩, e.w⟩ = .err g w) :
    StopsWith P (start (emitCommand P.W conv c) [] e) g w := by
  have := raw_command_ends hC wf e n
  rw [h] at this; exact this

/-- A `break` or `continue` that is in no loop is an error. -/
theorem C30_stray_break (hC : Compiled P conv defs) {c : Stmt} (wf : CmdWf P.W conv c) (e : End σ) {n : Nat} {t : St σ} {f : Flow}
    (h : execS P defs n 0 0 c ⟨⟨e.globals, []⟩, e.w⟩ = .ok f t) (hf : f = .brk ∨ f = .cont) :
    StopsWith P (start (emitCommand P.W conv c) [] e) t.fr.globals t.w := by
  have := raw_command_ends hC wf e n
  rw [h] at this
  rcases hf with rfl | rfl <;> exact this

/-- A run ends in only one way (so the theorems above say all there is to say about a run that ends). -/
theorem C30_one_ending {vm : Vm σ} {v v' : Val} {g g' : List (Var Val)} {w w' : σ} (h : EndsWith P vm v g w) :
    (EndsWith P vm v' g' w' → v' = v ∧ g' = g ∧ w' = w) ∧ ¬ StopsWith P vm g' w' := by
  obtain ⟨a, l, h1, h2⟩ := h
  constructor
  · rintro ⟨b, l', h3, h4⟩
    have := ends_det h1 h2 (by simp) h3 h4 (by simp)
    simp at this
    exact ⟨this.1.symm, this.2.1.symm, this.2.2.1.symm⟩
  · rintro ⟨b, l', h3, h4⟩
    have := ends_det h1 h2 (by simp) h3 h4 (by simp)
    simp at this

/-- The same for a run stopped by an error. -/
theorem C30_one_error {vm : Vm σ} {g g' : List (Var Val)} {w w' : σ} (h : StopsWith P vm g w) (h' : StopsWith P vm g' w') :
    g' = g ∧ w' = w := by
  obtain ⟨a, l, h1, h2⟩ := h
  obtain ⟨b, l', h3, h4⟩ := h'
  have := ends_det h1 h2 (by simp) h3 h4 (by simp)
  simp at this
  exact ⟨this.1.symm, this.2.1.symm⟩

end

/-! ## The hypotheses can be met -/

namespace Demo

/-- `i = 0` / `while 1:` / `i += 1` / `if i == 2: continue` / `elif 4 < i: break` / `print(i)` / `else: print(99)`, then
`print(7)`. -/
def loopCmd : Stmt :=
  .seq (.line 1) (.seq (.assign .plain 20 (.num (lit 0))) (.seq (.line 2)
    (.seq (.whil (.num (lit 1))
      (.seq (.line 3) (.seq (.assign (.aug .plus) 20 (.num (lit 1)))
        (.seq (.line 4) (.seq (.ifs (.cmp (.name 20) (.cmp .eq) (.num (lit 2)) .nil) (.seq (.line 5) .cont)
            (.elif 6 (.cmp (.num (lit 4)) (.cmp .lt) (.name 20) .nil) (.seq (.line 7) .brk) .none))
          (.seq (.line 8) (.expr (.call (.name 1) (.cons (.name 20) .nil) .nil)))))))
      (.seq (.line 9) (.expr (.call (.name 1) (.cons (.num (lit 99)) .nil) .nil))))
      (.seq (.line 10) (.expr (.call (.name 1) (.cons (.num (lit 7)) .nil) .nil))))))

/-- How a statement ended. -/
def flowOut : R Log Flow → Option (Nat × Log)
  | .ok .normal s => some (0, s.w)
  | .ok .brk s => some (1, s.w)
  | .ok .cont s => some (2, s.w)
  | .ok (.ret _) s => some (3, s.w)
  | _ => none

theorem loopCmd_wf : CmdWf P.W (fun _ => 0) loopCmd :=
  ⟨by simp [loopCmd, WfS, WfE, WfOpt, WfElse, WfChain, WfArgs, WfNamed, P, prim, Exprs.length, Named.length]; decide +kernel,
    rfl, by decide +kernel⟩

/-- It prints 1, 3, 4, 7. -/
example : ∃ v g, EndsWith P (start (emitCommand 2 (fun _ => 0) loopCmd) [] ⟨globals, [], 0⟩) v g [num 1, num 3, num 4, num 7] := by
  have hv : flowOut (execS P defs 40 0 0 loopCmd ⟨⟨globals, []⟩, []⟩) = some (0, [num 1, num 3, num 4, num 7]) := by decide +kernel
  have h : ∃ t, execS P defs 40 0 0 loopCmd ⟨⟨globals, []⟩, []⟩ = .ok .normal t ∧ t.w = [num 1, num 3, num 4, num 7] := by
    revert hv
    generalize execS P defs 40 0 0 loopCmd ⟨⟨globals, []⟩, []⟩ = r
    rcases r with ⟨_ | _ | _ | _, t⟩ | _ | _ | _ <;> simp [flowOut]
  obtain ⟨t, h1, h2⟩ := h
  obtain ⟨v, hv⟩ := C30_finishes compiled loopCmd_wf ⟨globals, [], 0⟩ h1
  exact ⟨v, t.fr.globals, h2 ▸ hv⟩

/-- `break` alone. -/
example : ∃ g, StopsWith P (start (emitCommand 2 (fun _ => 0) (.seq (.line 1) .brk)) [] ⟨globals, [], 0⟩) g [] :=
  ⟨_, C30_stray_break compiled ⟨by simp [WfS, P, prim], rfl, by decide +kernel⟩ ⟨globals, [], 0⟩ (n := 2) (f := .brk)
    (t := ⟨⟨globals, []⟩, []⟩) (by simp [execS, R.bind]) (.inl rfl)⟩

end Demo
end Snek.Lang
