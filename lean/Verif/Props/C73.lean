import Verif.Proofs.Flow
import Verif.Proofs.DemoVm
/-!
# C73 The machine only executes instructions of the program
-/
namespace Snek.Lang
open Snek.Vm Spec.Flow

section
variable {σ : Type} {P : Prim σ} {conv : BitVec 32 → BitVec 8} {defs : Nat → FunDef}

/-- The code of every function and command: each instruction lies in it with its operands, and jumps go to instructions or leave
the block. -/
theorem C73_code_sound_partial {W : Nat} (hW : 2 ≤ W) :
    (∀ f, FunWf W f → (emitDef W conv f).length < 256 ^ W - 1 → Sound W (emitDef W conv f)) ∧
    (∀ c, CmdWf W conv c → Sound W (emitCommand W conv c)) :=
  ⟨fun _ h1 h2 => (function_flow hW h1 h2).1, fun _ h => (command_flow hW h).1⟩

/-- The code blocks of a program: the command's and the functions'. -/
def Blocks (W : Nat) (conv : BitVec 32 → BitVec 8) (defs : Nat → FunDef) (c : Stmt) (C : List UInt8) : Prop :=
  C = emitCommand W conv c ∨ ∃ k, C = emitDef W conv (defs k)

theorem blocks_sound (hC : Compiled P conv defs) {c : Stmt} (wf : CmdWf P.W conv c) : ∀ C, Blocks P.W conv defs c C → Sound P.W C := by
  rintro C (rfl | ⟨k, rfl⟩)
  · exact (command_flow hC.width wf).1
  · exact (function_flow hC.width (hC.wf k) (hC.small k)).1

/-- Whatever the operations on values and the allocator do, at every moment of every run the machine is in a block of the
program, at the start of an instruction that lies in the block with its operands, or past the block's end; and every active call
was made, and will be continued after, a call instruction of a block of the program. -/
theorem C73_control_flow_partial (hC : Compiled P conv defs) {c : Stmt} (wf : CmdWf P.W conv c) (e : End σ) {s : Vm σ}
    (hs : Steps P (start (emitCommand P.W conv c) [] e) s) :
    Blocks P.W conv defs c s.code ∧
    (s.ip < s.code.length → Boundary P.W s.code s.ip ∧ (fetch P.W s.code s.ip).2.2 ≤ s.code.length) ∧
    ∀ f ∈ s.fr.frames, Blocks P.W conv defs c f.code ∧ Boundary P.W f.code f.ip ∧ f.ip < f.code.length ∧
      (∃ n, (fetch P.W f.code f.ip).1 = .call n) ∧ (fetch P.W f.code f.ip).2.2 = f.ip + P.W + 1 := by
  have hb := blocks_sound hC wf
  have h0 : Flowing P (Blocks P.W conv defs c) (start (emitCommand P.W conv c) [] e) :=
    ⟨⟨.inl rfl, .inl .first⟩, by simp [start]⟩
  have h := h0.steps hb (fun k => .inr ⟨k, hC.code k⟩) hs
  refine ⟨h.place.1, fun hlt => ?_, fun f hf => ?_⟩
  · have hbd : Boundary P.W s.code s.ip := by rcases h.place.2 with h | h; exact h; omega
    exact ⟨hbd, (hb _ h.place.1 _ hbd hlt).1⟩
  · obtain ⟨h1, h2, h3, n, h4⟩ := h.saved (f.code, f.ip) (List.mem_map.2 ⟨f, hf, rfl⟩)
    exact ⟨h1, h2, h3, ⟨n, h4⟩, fetch_call h4⟩

/-- The string constants a run loads are those of the command and the functions. -/
theorem C73_strings_partial (hC : Compiled P conv defs) {c : Stmt} (wf : CmdWf P.W conv c) (e : End σ) {s : Vm σ}
    (hs : Steps P (start (emitCommand P.W conv c) [] e) s) (hlt : s.ip < s.code.length) {o : Nat}
    (ho : (fetch P.W s.code s.ip).1 = .string o) : o ∈ strsS c ∨ ∃ k, o ∈ strsF (defs k) := by
  obtain ⟨h1, h2, -⟩ := C73_control_flow_partial hC wf e hs
  rcases h1 with h | ⟨k, h⟩
  · left
    have := (command_flow hC.width wf).2 s.ip
    rw [h] at h2 hlt ho
    exact this (h2 hlt).1 hlt o ho
  · right
    have := (function_flow hC.width (hC.wf k) (hC.small k)).2 s.ip
    rw [h] at h2 hlt ho
    exact ⟨k, this (h2 hlt).1 hlt o ho⟩

end

namespace Demo

/-! ## The hypotheses can be met -/

/-- `while 1: fact(1)`. -/
def flowCmd : Stmt := .seq (.line 1) (.whil (.num (lit 1)) (.seq (.line 2) (.expr (.call (.name 5) (.cons (.num (lit 1)) .nil) .nil))) .skip)

theorem flowCmd_wf : CmdWf 2 (fun _ => 0) flowCmd := by
  refine ⟨?_, rfl, by decide +kernel⟩
  simp [flowCmd, WfS, WfE, WfArgs, WfNamed, Exprs.length, Named.length]; decide +kernel

example {s : Vm Log} (hs : Steps P (start (emitCommand 2 (fun _ => 0) flowCmd) [] ⟨globals, [], 0⟩) s) :
    Blocks 2 (fun _ => 0) defs flowCmd s.code :=
  (C73_control_flow_partial (P := P) (conv := fun _ => 0) (defs := defs) compiled flowCmd_wf ⟨globals, [], 0⟩ hs).1

/-- Active calls of a running machine. -/
def calls : Out Log → List (List UInt8 × Nat)
  | .run s => s.fr.frames.map fun f => (f.code, f.ip)
  | _ => []

/-- After 7 steps the function runs, called from the instruction at offset 16 of the loop. -/
example : calls (run P 7 (start (emitCommand 2 (fun _ => 0) flowCmd) [] ⟨globals, [], 0⟩)) =
    [(emitCommand 2 (fun _ => 0) flowCmd, 16)] := by decide +kernel

/-! ## The code is wrong for some dictionary displays in loops -/

/-- A display with `n` ones. -/
def dispOnes : Nat → Exprs
  | 0 => .nil
  | n + 1 => .cons (.num (lit 1)) (dispOnes n)

/-- A loop with a dictionary display of 23 entries on line 60 and the expression `x` on line 61. -/
def dictLoop : Stmt :=
  .seq (.line 59) (.whil (.num (lit 1)) (.seq (.line 60) (.seq (.expr (.build .dict (dispOnes 46)))
    (.seq (.line 61) (.seq (.expr (.name 58)) (.seq (.line 62) .brk))))) .skip)

/-- Is there a comparison at this offset. -/
def isRel (C : List UInt8) (ip : Nat) : Bool := match (fetch 2 C ip).1 with | .rel _ => true | _ => false

/-- The run of a machine reads below the bottom of the stack. -/
def under : Out Log → Bool
  | .fault => true
  | _ => false

/-- The scanner that resolves `break` does not know that displays of dictionaries have an operand. It takes line number 61 for an
unresolved jump and overwrites the opcode that follows: the machine executes a comparison that is not in the program, on an empty
stack. -/
theorem C73_violated_dict :
    under (run P 60 (start (emitCommand 2 (fun _ => 0) dictLoop) [] ⟨globals, [], 0⟩)) = true ∧
    isRel (emitCommand 2 (fun _ => 0) dictLoop) 109 = true := by decide +kernel

end Demo
end Snek.Lang
