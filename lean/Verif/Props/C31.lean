import Verif.Proofs.VmCalls
import Verif.Proofs.DemoVm
/-!
# C31 A function that falls off its end returns None

For every function whose body is not one of those on which the code is wrong: `Compiled` asks that, if the last instruction of a
body is a return, its last statement is (`TailOk`).
-/
namespace Snek.Lang
open Store (Val)
open Snek.Vm

section
variable {σ : Type} {P : Prim σ} {conv : BitVec 32 → BitVec 8} {defs : Nat → FunDef}

/-- A call instruction with function `fv` and actuals. The formals are bound to `vars`, the defaults are evaluated, the body is
executed and finishes without a `return`: the caller gets None. Missing for the full property: bodies that end in a conditional
`return`. -/
theorem C31_falls_off_partial (hC : Compiled P conv defs) {vm : Vm σ} {fv : Val} {pos : List Val} {named : List (Nat × Val)}
    {stk : List Val} {p : Bool} (hip : vm.ip < vm.code.length)
    (hfetch : fetch P.W vm.code vm.ip = (.call (pos.length + 256 * named.length), p, vm.ip + 1 + P.W))
    (hpos : pos.length < 256) (hnam : ∀ q ∈ named, q.1 < 2 ^ 15)
    (hstk : vm.stack = (pos ++ flatten named).reverse ++ fv :: stk) (hcap : stk.length < P.cap) (hp : vm.pend = false)
    (hfv : fv.type = .func) {w : σ} (halloc : P.frameAlloc vm.w = (true, w)) {vars}
    (hbind : funcBind (P.sig fv.ref) (P.beyond w) pos named = .ok vars)
    {n m : Nat} {s t : St σ}
    (hdef : evalDefaults P defs n stk.length (defs fv.ref).defaults ⟨⟨vm.fr.globals, [⟨vars, (), 0⟩]⟩, w⟩ = .ok () s)
    (hbody : execS P defs m stk.length 0 (defs fv.ref).body s = .ok .normal t) :
    ∃ vm', Steps P vm vm' ∧ vm'.acc = Val.none ∧ vm'.stack = (if p then Val.none :: stk else stk) ∧ vm'.ip = vm.ip + 1 + P.W ∧
      vm'.code = vm.code ∧ vm'.w = t.w ∧ vm'.fr.globals = t.fr.globals := by
  have h : callV P defs (n + m + 1) stk.length fv pos named ⟨visible vm.fr, vm.w⟩ =
      .ok Val.none ⟨⟨t.fr.globals, (visible vm.fr).frames⟩, t.w⟩ := by
    have h1 := R.le_eq (evalDefaults_more (P := P) (defs := defs) (Nat.le_add_right n m) _ _ _) hdef rfl
    have h2 := R.le_eq (execS_more (P := P) (defs := defs) (Nat.le_add_left m n) _ _ _ _) hbody rfl
    have hg : (visible vm.fr).globals = vm.fr.globals := rfl
    simp only [callV, hfv, halloc, hbind, hg, h1, R.bind, h2]
  have h1 := raw_call hC hip hfetch hpos hnam hstk (Nat.le_of_lt hcap) hp (n + m + 1)
  rw [h] at h1
  obtain ⟨vm', h2, ht, h3, -⟩ := h1
  obtain ⟨ln, rfl⟩ := h3 (fun _ => hcap)
  exact ⟨_, h2, rfl, rfl, rfl, rfl, rfl, rfl⟩

end

namespace Demo

/-! ## The hypotheses can be met -/

/-- Function 12 of the demo has a body without a return (it only marks its line). -/
example : ∃ vm', Steps P (⟨encodeAll 2 [(.call 0, false)], 0, num 3, [fn 12], ⟨globals, []⟩, 0, [], false⟩ : Vm Log) vm' ∧
    vm'.acc = Val.none := by
  obtain ⟨vm', h, h1, _⟩ := C31_falls_off_partial (stk := []) (pos := []) (named := []) (p := false) compiled
    (vm := ⟨encodeAll 2 [(.call 0, false)], 0, num 3, [fn 12], ⟨globals, []⟩, 0, [], false⟩) (fv := fn 12) (by decide)
    (by decide +kernel) (by decide) (by simp) rfl (by decide) rfl (by decide +kernel) (w := []) rfl (vars := [])
    (by decide +kernel) (n := 1) (m := 1) (s := ⟨⟨globals, [⟨[], (), 0⟩]⟩, []⟩) (t := ⟨⟨globals, [⟨[], (), 0⟩]⟩, []⟩)
    (by rw [show defs (fn 12).ref = ⟨.nil, .line 1⟩ by unfold defs; rw [if_neg (by decide +kernel)]]; simp [evalDefaults])
    (by rw [show defs (fn 12).ref = ⟨.nil, .line 1⟩ by unfold defs; rw [if_neg (by decide +kernel)]]; simp [execS])
  exact ⟨vm', h, h1⟩

/-! ## The code is wrong for other bodies -/

/-- `def f(x): if x: return 1`. -/
def condDef : FunDef := ⟨.nil, .seq (.line 1) (.ifs (.name 6) (.seq (.line 2) (.ret (.some (.num (lit 1))))) .none)⟩

/-- `f(0)` should be None; it is 0, the value of the condition. -/
theorem C31_violated :
    value (evalE (prim 256 (fun _ => condDef) fun _ => ⟨[6], 1⟩) (fun _ => condDef) 20 0
      (.call (.name 5) (.cons (.num 0) .nil) .nil) ⟨⟨globals, []⟩, []⟩) = some (Val.none, []) ∧
    ended (run (prim 256 (fun _ => condDef) fun _ => ⟨[6], 1⟩) 50 (start (emitCommand 2 (fun _ => 0)
      (.seq (.line 1) (.expr (.call (.name 5) (.cons (.num 0) .nil) .nil)))) [] ⟨globals, [], 0⟩)) = some (.num 0, []) := by
  constructor <;> decide +kernel

end Demo
end Snek.Lang
