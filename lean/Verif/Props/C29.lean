import Verif.Spec.Chain
import Verif.Proofs.VmCalls
import Verif.Proofs.DemoVm
/-!
# C29 Chained comparison

`Spec.Chain.Compares` says what a chain means. The theorem covers chains of every length with all operators, with two
exceptions on which the code is wrong (see the witnesses): a link other than the last that is `is`, `is not`, `in` or `not in`
(excluded by `WfE`), and a chain at the very start of a parameter default (excluded by `AtExpr`).
-/
namespace Snek.Lang
open Store (Val)
open Snek.Vm

section
variable {σ : Type} {P : Prim σ} {conv : BitVec 32 → BitVec 8} {defs : Nat → FunDef}

theorem compares_eval {d x l s v} {u : St σ} (hd : d < P.cap) (h : Compares P defs d x l s v u) :
    ∀ r b more, l = (r, b) :: more.links → ∃ n, evalChain P defs n d x r b more s = .ok v u := by
  induction h with
  | last h1 h2 =>
    intro r b more hl
    obtain ⟨n, h1⟩ := h1
    cases more with
    | nil =>
      simp only [Chain.links, List.cons.injEq, Prod.mk.injEq, and_true] at hl
      obtain ⟨rfl, rfl⟩ := hl
      exact ⟨n + 1, by rw [evalChain]; simp [needRoom, hd, h1, R.bind, h2, St.prim]⟩
    | cons => simp [Chain.links] at hl
  | stop h1 h2 h3 =>
    intro r b more hl
    obtain ⟨n, h1⟩ := h1
    cases more with
    | nil => simp [Chain.links] at hl
    | cons r' c more =>
      simp only [Chain.links, List.cons.injEq, Prod.mk.injEq] at hl
      obtain ⟨⟨rfl, rfl⟩, -⟩ := hl
      exact ⟨n + 1, by rw [evalChain]; simp [needRoom, hd, h1, R.bind, h2, St.prim, h3]⟩
  | go h1 h2 h3 _ ih =>
    intro r b more hl
    obtain ⟨n, h1⟩ := h1
    cases more with
    | nil => simp [Chain.links] at hl
    | cons r' c more =>
      simp only [Chain.links, List.cons.injEq, Prod.mk.injEq] at hl
      obtain ⟨⟨rfl, rfl⟩, rfl, rfl⟩ := hl
      obtain ⟨m, hm⟩ := ih r' c more rfl
      have h1' := R.le_eq (evalE_more (P := P) (defs := defs) (Nat.le_add_right n m) _ _ _) h1 rfl
      have hm' := R.le_eq (evalChain_more (P := P) (defs := defs) (Nat.le_add_left m n) _ _ _ _ _ _) hm rfl
      exact ⟨n + m + 1, by rw [evalChain]; simp [needRoom, hd, h1', R.bind, h2, St.prim, h3, hm']⟩

/-- A chain `a r b more...` yields what its meaning says: every operand evaluated once, in order, up to the first false link.
Missing for the full property: chains through `is`/`in`, and chains at the start of a parameter default. -/
theorem C29_chain_partial (hC : Compiled P conv defs) {vm : Vm σ} {a b : Expr} {r : RelOp} {more : Chain} {z p after}
    (wf : WfE P.W z (.cmp a r b more)) (hat : AtExpr P.W conv vm (.cmp a r b more) p after) (hp : vm.pend = false)
    (hcap : vm.stack.length < P.cap) {x v : Val} {s t : St σ}
    (ha : Evals P defs vm.stack.length a ⟨visible vm.fr, vm.w⟩ x s)
    (hc : Compares P defs vm.stack.length x ((r, b) :: more.links) s v t) : Yields P vm p after v t := by
  obtain ⟨n, ha⟩ := ha
  obtain ⟨m, hm⟩ := compares_eval hcap hc r b more rfl
  have h1 := R.le_eq (evalE_more (P := P) (defs := defs) (Nat.le_add_right n m) _ _ _) ha rfl
  have h2 := R.le_eq (evalChain_more (P := P) (defs := defs) (Nat.le_add_left m n) _ _ _ _ _ _) hm rfl
  exact yields_of hC wf hat hp hcap (n := n + m + 1) (by simp [evalE, h1, R.bind, h2])

end

namespace Demo

/-! ## The hypotheses can be met -/

/-- `1 < 3 < 2 < undefined` is false: the undefined name is not looked at. -/
example : ∃ after s, Yields P (at_ (.cmp (.num (lit 1)) (.cmp .lt) (.num (lit 3)) (.cons (.cmp .lt) (.num (lit 2))
    (.cons (.cmp .lt) (.name 77) .nil)))) false after (.num 0) s := by
  refine ⟨_, _, C29_chain_partial (z := false) compiled ?_ (at_expr (by decide +kernel)) rfl (by decide)
    (x := num 1) (s := ⟨⟨globals, []⟩, []⟩) ⟨1, by simp [evalE, at_, visible, num]⟩ (.go (y := num 3) (v := num 1) (t := ⟨⟨globals, []⟩, []⟩) (w := []) ⟨1, ?_⟩ ?_ ?_
      (.stop (y := num 2) (t := ⟨⟨globals, []⟩, []⟩) (w := []) ⟨1, ?_⟩ ?_ ?_))⟩
  · simp [WfE, WfChain, P, prim]; decide +kernel
  · simp [evalE, num]
  · decide +kernel
  · decide +kernel
  · simp [evalE, num]
  · decide +kernel
  · decide +kernel

/-! ## The code is wrong for other chains -/

/-- Whether the machine runs into reading below the bottom of the stack. -/
def faulted {σ : Type} : Out σ → Bool
  | .fault => true
  | _ => false

/-- `3 is 3 < 4` should be 1; the machine reads below the bottom of its stack. -/
theorem C29_violated_is :
    value (evalE P defs 20 0 (.cmp (.num (lit 3)) .is (.num (lit 3)) (.cons (.cmp .lt) (.num (lit 4)) .nil)) ⟨⟨globals, []⟩, []⟩)
      = some (num 1, []) ∧
    faulted (run P 20 (start (emitCommand 2 (fun _ => 0) (.seq (.line 1)
      (.expr (.cmp (.num (lit 3)) .is (.num (lit 3)) (.cons (.cmp .lt) (.num (lit 4)) .nil))))) [] ⟨globals, [], 0⟩)) = true := by
  constructor <;> decide +kernel

/-- `def f(x = 1 < 3 < 2): return x`. -/
def chainDef : FunDef :=
  ⟨.cons 6 (.cmp (.num (lit 1)) (.cmp .lt) (.num (lit 3)) (.cons (.cmp .lt) (.num (lit 2)) .nil)) .nil,
    .seq (.line 1) (.ret (.some (.name 6)))⟩

/-- `f()` should be 0; it is 1. -/
theorem C29_violated_default :
    value (evalE (prim 256 (fun _ => chainDef) fun _ => ⟨[6], 0⟩) (fun _ => chainDef) 20 0 (.call (.name 5) .nil .nil)
      ⟨⟨globals, []⟩, []⟩) = some (num 0, []) ∧
    ended (run (prim 256 (fun _ => chainDef) fun _ => ⟨[6], 0⟩) 50 (start (emitCommand 2 (fun _ => 0)
      (.seq (.line 1) (.expr (.call (.name 5) .nil .nil)))) [] ⟨globals, [], 0⟩)) = some (num 1, []) := by
  constructor <;> decide +kernel

end Demo
end Snek.Lang
