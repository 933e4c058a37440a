import Verif.Proofs.VmCalls
import Verif.Proofs.Fuel
import Verif.Proofs.DemoVm
/-!
# C28 and/or short-circuit

For expressions `a and b`, `a or b` anywhere in a program (`AtExpr`, see C27).
-/
namespace Snek.Lang
open Store (Val)
open Snek.Vm

section
variable {σ : Type} {P : Prim σ} {conv : BitVec 32 → BitVec 8} {defs : Nat → FunDef}

/-- `a` is false: the value is that of `a`, and nothing of `b` happens, whatever `b` is (it may fail or not end). -/
theorem C28_and_false (hC : Compiled P conv defs) {vm : Vm σ} {a b : Expr} {z p after} (wf : WfE P.W z (.and a b))
    (hat : AtExpr P.W conv vm (.and a b) p after) (hp : vm.pend = false) (hcap : vm.stack.length < P.cap)
    {n : Nat} {x : Val} {s : St σ} (ha : evalE P defs n vm.stack.length a ⟨visible vm.fr, vm.w⟩ = .ok x s)
    (hx : P.truth s.w x = false) : Yields P vm p after x s :=
  yields_of hC wf hat hp hcap (n := n + 1) (by simp [evalE, ha, R.bind, hx])

/-- `a` is true: the value is that of `b`, evaluated after `a`. -/
theorem C28_and_true (hC : Compiled P conv defs) {vm : Vm σ} {a b : Expr} {z p after} (wf : WfE P.W z (.and a b))
    (hat : AtExpr P.W conv vm (.and a b) p after) (hp : vm.pend = false) (hcap : vm.stack.length < P.cap)
    {n m : Nat} {x y : Val} {s t : St σ} (ha : evalE P defs n vm.stack.length a ⟨visible vm.fr, vm.w⟩ = .ok x s)
    (hx : P.truth s.w x = true) (hb : evalE P defs m vm.stack.length b s = .ok y t) : Yields P vm p after y t := by
  obtain ⟨h1, h2⟩ := common_fuel ha hb rfl rfl
  exact yields_of hC wf hat hp hcap (n := n + m + 1) (by simp [evalE, h1, R.bind, hx, h2])

/-- `a` is true and `b` fails. -/
theorem C28_and_error (hC : Compiled P conv defs) {vm : Vm σ} {a b : Expr} {z p after} (wf : WfE P.W z (.and a b))
    (hat : AtExpr P.W conv vm (.and a b) p after) (hp : vm.pend = false) (hcap : vm.stack.length < P.cap)
    {n m : Nat} {x : Val} {s : St σ} {g w} (ha : evalE P defs n vm.stack.length a ⟨visible vm.fr, vm.w⟩ = .ok x s)
    (hx : P.truth s.w x = true) (hb : evalE P defs m vm.stack.length b s = .err g w) : StopsWith P vm g w := by
  obtain ⟨h1, h2⟩ := common_fuel ha hb rfl rfl
  exact stops_of hC wf hat hp hcap (n := n + m + 1) (by simp [evalE, h1, R.bind, hx, h2])

/-- `a` is true: the value is that of `a`, and nothing of `b` happens. -/
theorem C28_or_true (hC : Compiled P conv defs) {vm : Vm σ} {a b : Expr} {z p after} (wf : WfE P.W z (.or a b))
    (hat : AtExpr P.W conv vm (.or a b) p after) (hp : vm.pend = false) (hcap : vm.stack.length < P.cap)
    {n : Nat} {x : Val} {s : St σ} (ha : evalE P defs n vm.stack.length a ⟨visible vm.fr, vm.w⟩ = .ok x s)
    (hx : P.truth s.w x = true) : Yields P vm p after x s :=
  yields_of hC wf hat hp hcap (n := n + 1) (by simp [evalE, ha, R.bind, hx])

/-- `a` is false: the value is that of `b`, evaluated after `a`. -/
theorem C28_or_false (hC : Compiled P conv defs) {vm : Vm σ} {a b : Expr} {z p after} (wf : WfE P.W z (.or a b))
    (hat : AtExpr P.W conv vm (.or a b) p after) (hp : vm.pend = false) (hcap : vm.stack.length < P.cap)
    {n m : Nat} {x y : Val} {s t : St σ} (ha : evalE P defs n vm.stack.length a ⟨visible vm.fr, vm.w⟩ = .ok x s)
    (hx : P.truth s.w x = false) (hb : evalE P defs m vm.stack.length b s = .ok y t) : Yields P vm p after y t := by
  obtain ⟨h1, h2⟩ := common_fuel ha hb rfl rfl
  exact yields_of hC wf hat hp hcap (n := n + m + 1) (by simp [evalE, h1, R.bind, hx, h2])

/-- `a` is false and `b` fails. -/
theorem C28_or_error (hC : Compiled P conv defs) {vm : Vm σ} {a b : Expr} {z p after} (wf : WfE P.W z (.or a b))
    (hat : AtExpr P.W conv vm (.or a b) p after) (hp : vm.pend = false) (hcap : vm.stack.length < P.cap)
    {n m : Nat} {x : Val} {s : St σ} {g w} (ha : evalE P defs n vm.stack.length a ⟨visible vm.fr, vm.w⟩ = .ok x s)
    (hx : P.truth s.w x = false) (hb : evalE P defs m vm.stack.length b s = .err g w) : StopsWith P vm g w := by
  obtain ⟨h1, h2⟩ := common_fuel ha hb rfl rfl
  exact stops_of hC wf hat hp hcap (n := n + m + 1) (by simp [evalE, h1, R.bind, hx, h2])

/-- `a` fails: so does the whole. -/
theorem C28_left_error (hC : Compiled P conv defs) {vm : Vm σ} {a b : Expr} {z p after} {isAnd : Bool}
    (wf : WfE P.W z (if isAnd then .and a b else .or a b))
    (hat : AtExpr P.W conv vm (if isAnd then .and a b else .or a b) p after) (hp : vm.pend = false)
    (hcap : vm.stack.length < P.cap) {n : Nat} {g w}
    (ha : evalE P defs n vm.stack.length a ⟨visible vm.fr, vm.w⟩ = .err g w) : StopsWith P vm g w :=
  stops_of hC wf hat hp hcap (n := n + 1) (by cases isAnd <;> simp [evalE, ha, R.bind])

end

/-! ## The hypotheses can be met -/

namespace Demo

/-- `0 and undefined` is 0: the undefined name is not looked at. -/
example : ∃ after, Yields P (at_ (.and (.num 0) (.name 77))) false after (.num 0) ⟨⟨globals, []⟩, []⟩ :=
  ⟨_, C28_and_false (z := false) compiled (by simp [WfE, P, prim]) (at_expr (by decide +kernel)) rfl (by decide) (n := 1)
    (x := .num 0) (s := ⟨⟨globals, []⟩, []⟩) (by simp [evalE, at_, visible]) rfl⟩

/-- `1 and undefined` fails. -/
example : StopsWith P (at_ (.and (.num (lit 1)) (.name 77))) globals [] :=
  C28_and_error (z := false) compiled (by simp [WfE, P, prim]; decide +kernel) (at_expr (by decide +kernel)) rfl (by decide) (n := 1)
    (m := 1) (x := num 1) (s := ⟨⟨globals, []⟩, []⟩) (by simp [evalE, at_, visible, num]) (by decide +kernel)
    (by simp only [evalE, show loadName P (⟨globals, []⟩ : Frames Val Unit) 77 = none by decide +kernel, St.fail])

/-- `0 or fact(3)`. -/
example : ∃ after s, Yields P (at_ (.or (.num 0) (.call (.name 5) (.cons (.num (lit 3)) .nil) .nil))) false after (num 6) s := by
  have hv : value (evalE P defs 40 1 (.call (.name 5) (.cons (.num (lit 3)) .nil) .nil) ⟨⟨globals, []⟩, []⟩) = some (num 6, []) := by
    decide +kernel
  obtain ⟨s, h1, h2⟩ := value_ok hv
  exact ⟨_, s, C28_or_false (z := false) compiled (by
    simp [WfE, WfArgs, WfNamed, P, prim, Exprs.length, Named.length]; decide +kernel)
    (at_expr (by decide +kernel)) rfl (by decide) (n := 1) (x := .num 0) (s := ⟨⟨globals, []⟩, []⟩)
    (by simp [evalE, at_, visible]) rfl h1⟩

end Demo
end Snek.Lang
