import Verif.Proofs.Halt
import Verif.Proofs.DemoVm
/-!
# C58 Stack overflow is caught

In the model a stack index out of range shows as follows: a write above the top as a stack longer than the capacity, a read below
the bottom as `fault`.
-/
namespace Snek.Lang
open Snek.Vm

section
variable {σ : Type} {P : Prim σ} {conv : BitVec 32 → BitVec 8} {defs : Nat → FunDef}

/-- Nothing outside the stack is written: whatever the code, no run makes the stack longer than its capacity. -/
theorem C58_no_write_outside {a b : Vm σ} (h : Steps P a b) (ha : a.stack.length ≤ P.cap) : b.stack.length ≤ P.cap :=
  steps_stack h ha

/-- A command that needs more pending operands than there is room for is not executed further: its run ends, and not normally.
Missing for the full property: that it always ends with the report of the error (see the witness). -/
theorem C58_overflow_ends_partial (hC : Compiled P conv defs) {c : Stmt} (wf : CmdWf P.W conv c) (e : End σ) {n : Nat}
    (h : execS P defs n 0 0 c ⟨⟨e.globals, []⟩, e.w⟩ = .over) :
    ∃ vm', Steps P (start (emitCommand P.W conv c) [] e) vm' ∧ (step P vm' = .fault ∨ ∃ e', step P vm' = .abort e') := by
  have := raw_command_ends hC wf e n
  rw [h] at this
  obtain ⟨vm', h1, h2⟩ := this
  obtain ⟨vm'', h3, h4⟩ := pend_ends (P := P) h2
  exact ⟨vm'', h1.trans h3, h4⟩

/-- A command with enough room for its operands, whether it ends or not, never reads below the bottom of the stack. -/
theorem C58_no_read_below_partial (hC : Compiled P conv defs) {c : Stmt} (wf : CmdWf P.W conv c) (e : End σ)
    (h : ∀ n, execS P defs n 0 0 c ⟨⟨e.globals, []⟩, e.w⟩ ≠ .over)
    {vm' : Vm σ} (hs : Steps P (start (emitCommand P.W conv c) [] e) vm') : step P vm' ≠ .fault := by
  intro hf
  by_cases hc : ∃ n, (execS P defs n 0 0 c ⟨⟨e.globals, []⟩, e.w⟩).cut = false
  · obtain ⟨n, h'⟩ := hc
    have hx := raw_command_ends hC wf e n
    have h := h n
    revert hx; revert h'; revert h
    cases execS P defs n 0 0 c ⟨⟨e.globals, []⟩, e.w⟩ with
    | over => simp
    | time => simp [R.cut]
    | err g w =>
      rintro - - ⟨a, l, h1, h2⟩
      have := ends_det h1 h2 (by simp) hs hf (by simp)
      simp at this
    | ok fl t =>
      intro _ _ hx
      cases fl with
      | normal =>
        obtain ⟨v, a, l, h1, h2⟩ := hx
        have := ends_det h1 h2 (by simp) hs hf (by simp)
        simp at this
      | ret v =>
        obtain ⟨a, l, h1, h2⟩ := hx
        have := ends_det h1 h2 (by simp) hs hf (by simp)
        simp at this
      | brk =>
        obtain ⟨a, l, h1, h2⟩ := hx
        have := ends_det h1 h2 (by simp) hs hf (by simp)
        simp at this
      | cont =>
        obtain ⟨a, l, h1, h2⟩ := hx
        have := ends_det h1 h2 (by simp) hs hf (by simp)
        simp at this
  · obtain ⟨k, hk⟩ := far_ahead hs
    obtain ⟨N, hN⟩ := command_trm hC wf e k
    have := hN N (Nat.le_refl _)
    cases hr : execS P defs N 0 0 c ⟨⟨e.globals, []⟩, e.w⟩ with
    | time g w =>
      rw [hr] at this
      obtain ⟨vm2, h1, -⟩ := this
      obtain ⟨-, t, h2⟩ := hk _ h1
      rw [hf] at h2; cases h2
    | _ => exact hc ⟨N, by rw [hr]; rfl⟩

end

namespace Demo

/-- A list display with `n` ones. -/
def ones : Nat → Exprs
  | 0 => .nil
  | n + 1 => .cons (.num (lit 1)) (ones n)

/-- Did the evaluation need too much room. -/
def isOver {α : Type} : R Log α → Bool
  | .over => true
  | _ => false

/-- Did the run read below the bottom of the stack. -/
def below : Out Log → Bool
  | .fault => true
  | _ => false

/-! ## The hypotheses can be met -/

/-- On a machine with room for 3 operands, `1 + (1 + (1 + (1 + 1)))` needs 4. -/
def deep : Nat → Expr
  | 0 => .num (lit 1)
  | n + 1 => .binary .plus (.num (lit 1)) (deep n)

/-- It ends with an error. -/
example : ∃ vm', Steps (prim 3 defs sig) (start (emitCommand 2 (fun _ => 0) (.seq (.line 1) (.expr (deep 4)))) [] ⟨globals, [], 0⟩) vm' ∧
    (step (prim 3 defs sig) vm' = .fault ∨ ∃ e, step (prim 3 defs sig) vm' = .abort e) := by
  have hv : isOver (execS (prim 3 defs sig) defs 40 0 0 (.seq (.line 1) (.expr (deep 4))) ⟨⟨globals, []⟩, []⟩) = true := by
    decide +kernel
  refine C58_overflow_ends_partial (P := prim 3 defs sig) (conv := fun _ => 0) (defs := defs) (n := 40)
    ⟨compiled.width, compiled.wf, compiled.code, compiled.small⟩ ⟨?_, rfl, by decide +kernel⟩ ⟨globals, [], 0⟩ ?_
  · simp [deep, WfS, WfE, prim]; decide +kernel
  · revert hv
    generalize execS (prim 3 defs sig) defs 40 0 0 (.seq (.line 1) (.expr (deep 4))) ⟨⟨globals, []⟩, []⟩ = r
    cases r <;> simp [isOver]

/-! ## The code is wrong when the operands of one instruction overflow the stack by one -/

/-- A list display with 257 elements on a machine with room for 256 operands (the default): the last push is refused, but the
instruction that makes the list runs before the error is noticed and takes 257 operands off a stack that has 256. -/
theorem C58_violated :
    below (run P 300 (start (emitCommand 2 (fun _ => 0) (.seq (.line 1) (.expr (.build .list (ones 257))))) [] ⟨globals, [], 0⟩))
      = true := by decide +kernel

end Demo
end Snek.Lang
