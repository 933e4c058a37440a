import Verif.Proofs.VmCalls
import Verif.Proofs.DemoVm
/-!
# C26 Calls return to the caller

First for compiled programs: a call gives back the callee's value, with the caller's variables, pending operands and code, right
after the call. Then, whatever the code is (also code no compiler made): while calls made from a call are active, the frames of
the callers are not touched, and when the call is over, execution goes on in the caller's code right after the call
instruction, with the caller's frames.
-/
namespace Snek.Lang
open Store (Val)
open Snek.Vm

section
variable {σ : Type} {P : Prim σ} {conv : BitVec 32 → BitVec 8} {defs : Nat → FunDef}

/-- A call instruction with the function `fv`, the actuals `pos` and `named` and, below them, the caller's pending operands
`stk` on the stack. If the call has a value, the machine gets to the instruction after the call: all frames, hence all local
variables of the caller and of its callers, are as before; so are code and operands; the value is in the accumulator, and pushed
if the instruction says so. -/
theorem C26_call_returns (hC : Compiled P conv defs) {vm : Vm σ} {fv : Val} {pos : List Val} {named : List (Nat × Val)}
    {stk : List Val} {p : Bool} (hip : vm.ip < vm.code.length)
    (hfetch : fetch P.W vm.code vm.ip = (.call (pos.length + 256 * named.length), p, vm.ip + 1 + P.W))
    (hpos : pos.length < 256) (hnam : ∀ q ∈ named, q.1 < 2 ^ 15)
    (hstk : vm.stack = (pos ++ flatten named).reverse ++ fv :: stk) (hcap : stk.length < P.cap) (hp : vm.pend = false)
    {n : Nat} {v : Val} {s : St σ}
    (h : callV P defs n stk.length fv pos named ⟨visible vm.fr, vm.w⟩ = .ok v s) :
    ∃ vm', Steps P vm vm' ∧ vm'.fr.frames = vm.fr.frames ∧ vm'.fr.globals = s.fr.globals ∧ vm'.code = vm.code ∧
      vm'.ip = vm.ip + 1 + P.W ∧ vm'.stack = (if p then v :: stk else stk) ∧ vm'.acc = v ∧ vm'.w = s.w ∧ vm'.pend = false := by
  have h1 := raw_call hC hip hfetch hpos hnam hstk (Nat.le_of_lt hcap) hp n
  rw [h] at h1
  obtain ⟨vm', h2, ht, h3, -⟩ := h1
  obtain ⟨ln, rfl⟩ := h3 (fun _ => hcap)
  have hfr := callV_frames h
  refine ⟨_, h2, ?_, rfl, rfl, rfl, rfl, rfl, rfl, rfl⟩
  have h4 := emb_visible vm
  show (emb (ctxOf vm) s.fr).frames = vm.fr.frames
  conv => rhs; rw [← h4]
  unfold emb
  simp only [hfr]

/-- If the call fails, the run is stopped by the error. -/
theorem C26_call_error (hC : Compiled P conv defs) {vm : Vm σ} {fv : Val} {pos : List Val} {named : List (Nat × Val)}
    {stk : List Val} {p : Bool} (hip : vm.ip < vm.code.length)
    (hfetch : fetch P.W vm.code vm.ip = (.call (pos.length + 256 * named.length), p, vm.ip + 1 + P.W))
    (hpos : pos.length < 256) (hnam : ∀ q ∈ named, q.1 < 2 ^ 15)
    (hstk : vm.stack = (pos ++ flatten named).reverse ++ fv :: stk) (hcap : stk.length < P.cap) (hp : vm.pend = false)
    {n : Nat} {g w} (h : callV P defs n stk.length fv pos named ⟨visible vm.fr, vm.w⟩ = .err g w) : StopsWith P vm g w := by
  have h1 := raw_call hC hip hfetch hpos hnam hstk (Nat.le_of_lt hcap) hp n
  rw [h] at h1
  obtain ⟨vm', ⟨g', w', ln⟩, h1, h2, rfl, rfl⟩ := h1
  exact ⟨vm', ln, h1, h2⟩

/-- Any code: `s` calls a function (`s1` is in the callee); the machine runs on to `t` with the call active all the time. The
caller's frames are still there, untouched, below a frame that says where to return to. -/
theorem C26_callers_untouched {s s1 t : Vm σ} {vars} (hcall : s1.fr.frames = ⟨vars, s.code, s.ip⟩ :: s.fr.frames)
    (h : StepsAbove P s.fr.frames.length s1 t) :
    ∃ inner vars', t.fr.frames = inner ++ ⟨vars', s.code, s.ip⟩ :: s.fr.frames :=
  callerIs_above ⟨[], vars, by simpa using hcall⟩ h

/-- Any code: when the call is over, that is with the first step after which no more calls are active than before it, the
machine is back in the caller's code, right after the call instruction, with the caller's frames. -/
theorem C26_return_address {s s1 t u : Vm σ} {vars} (hcall : s1.fr.frames = ⟨vars, s.code, s.ip⟩ :: s.fr.frames)
    (h : StepsAbove P s.fr.frames.length s1 t) (hu : step P t = .run u) (hret : u.fr.frames.length ≤ s.fr.frames.length) :
    u.fr.frames = s.fr.frames ∧ u.code = s.code ∧ u.ip = s.ip + P.W + 1 := by
  rcases callerIs_step (C26_callers_untouched hcall h) hu with ⟨pre, vars', h1⟩ | h1
  · rw [h1] at hret; simp at hret; omega
  · exact h1

/-- Any code: a step that makes more calls active is a call from the current code, and the frame it pushes says so. -/
theorem C26_call_saves_return_address {s t : Vm σ} (h : step P s = .run t) (hd : s.fr.frames.length < t.fr.frames.length) :
    ∃ vars, t.fr.frames = ⟨vars, s.code, s.ip⟩ :: s.fr.frames := by
  rcases step_eff h with ⟨_, _, ⟨ha, _⟩ | hv⟩ | ⟨_, f, h1, _⟩
  · have := congrArg List.length ha.2
    simp at this; omega
  · exact hv
  · have := congrArg List.length h1
    simp at this; omega

end

/-! ## The hypotheses can be met -/

namespace Demo

/-- `fact(3)` called from a function with local variable 9 = 4 that was called from elsewhere, with operand 7 pending. -/
def callState : Vm Log :=
  ⟨encodeAll 2 [(.call 1, true), (.arith .plus, false)], 0, .num 0, [num 3, fn 8, num 7],
    ⟨globals, [⟨[⟨num 4, 9⟩], [68, 68], 1⟩]⟩, 0, [], false⟩

example : ∃ vm', Steps P callState vm' ∧ vm'.fr.frames = callState.fr.frames ∧ vm'.acc = num 6 ∧ vm'.stack = [num 6, num 7] ∧
    vm'.ip = 3 := by
  have hv : value (callV P defs 40 1 (fn 8) [num 3] [] ⟨visible callState.fr, callState.w⟩) = some (num 6, []) := by decide +kernel
  obtain ⟨s, h1, h2⟩ := value_ok hv
  obtain ⟨vm', h, h3, _, _, h4, h5, h6, _⟩ := C26_call_returns (stk := [num 7]) (p := true) compiled (vm := callState) (by decide)
    (by decide +kernel) (by decide) (by simp) rfl (by decide) rfl h1
  exact ⟨vm', h, h3, h6, h5, h4⟩

/-- Calling `fact()` without its parameter fails. -/
example : ∃ g, StopsWith P { callState with code := encodeAll 2 [(.call 0, true)], stack := [fn 8, num 7] } g [] := by
  have hv : errOut (callV P defs 40 1 (fn 8) [] [] ⟨visible callState.fr, callState.w⟩) = some [] := by decide +kernel
  obtain ⟨g, h1⟩ := errOut_err hv
  exact ⟨g, C26_call_error (stk := [num 7]) (pos := []) (named := []) (p := true) compiled
    (vm := { callState with code := encodeAll 2 [(.call 0, true)], stack := [fn 8, num 7] }) (by decide)
    (by decide +kernel) (by decide) (by simp) rfl (by decide) rfl h1⟩

/-- A function with an empty body is entered and left. -/
example : ∃ s1 u : Vm Log, StepsAbove P 1 s1 s1 ∧ step P s1 = .run u ∧ u.ip = 3 ∧
    s1.fr.frames = ⟨[], callState.code, callState.ip⟩ :: callState.fr.frames :=
  ⟨{ callState with code := [], fr := ⟨globals, ⟨[], callState.code, callState.ip⟩ :: callState.fr.frames⟩ },
    _, .refl _ (by decide), rfl, rfl, rfl⟩

end Demo
end Snek.Lang
