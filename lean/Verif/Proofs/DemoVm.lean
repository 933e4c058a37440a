import Verif.Proofs.VmRaw
/-!
# A small concrete machine

For showing that the hypotheses of the theorems about programs can be met, and for running the programs on which the code is
wrong. Numbers only; the builtin 1 appends its actuals to the output.
-/
namespace Snek.Lang.Demo
open Store (Val)
open Snek.Vm

/-- The world is the output so far. -/
abbrev Log := List Val

/-- Numbers. -/
def lit (i : Int) : BitVec 32 := intToF i

/-- Numbers as values. -/
def num (i : Int) : Val := .num (lit i)

/-- The function object at this offset. -/
def fn (k : Nat) : Val := .func k

/-- Comparison of numbers. -/
def demoRel : RelOp → Val → Val → Bool
  | .cmp .eq, .num a, .num b => fkey a = fkey b
  | .cmp .ne, .num a, .num b => fkey a ≠ fkey b
  | .cmp .gt, .num a, .num b => fkey b < fkey a
  | .cmp .lt, .num a, .num b => fkey a < fkey b
  | .cmp .ge, .num a, .num b => fkey b ≤ fkey a
  | .cmp .le, .num a, .num b => fkey a ≤ fkey b
  | .is, a, b => a = b
  | .isNot, a, b => a ≠ b
  | _, _, _ => false

/-- The operations. -/
def prim (cap : Nat) (defs : Nat → FunDef) (sig : Nat → FuncSig) : Prim Log where
  W := 2
  cap := cap
  truth _ v := v ≠ .num 0 && v ≠ Val.none
  rel r a b w := (some (num (if demoRel r a b then 1 else 0)), w)
  index _ _ w := (none, w)
  arith op _ a b w :=
    match a, b with
    | .num a, .num b =>
      match numBinary (fun a _ => a) op a b with
      | .ok u => (.num u, false, w)
      | _ => (Val.none, true, w)
    | _, _ => (Val.none, true, w)
  unary _ v w :=
    match v with
    | .num v => (some (.num (v ^^^ 0x80000000#32)), w)
    | _ => (none, w)
  slice _ _ _ _ w := (none, w)
  build _ _ w := (some (.list 16), w)
  storeIdx _ _ _ _ w := (none, w)
  delIdx _ _ w := (false, w)
  builtinMax := 2
  builtinVal x := .builtin (4 * x)
  callBuiltin _ pos _ w := (some Val.none, w ++ pos)
  sig := sig
  code k := emitDef 2 (fun _ => 0) (defs k)
  beyond _ _ := 1
  varAlloc w := (true, true, w)
  frameAlloc w := (true, w)
  iter _ _ w := (some Val.none, w)
  varBytes := Store.valVarBytes Val.word 2 2

/-- Run for at most `n` steps. -/
def run {σ : Type} (P : Prim σ) : Nat → Vm σ → Out σ
  | 0, s => .run s
  | n + 1, s =>
    match step P s with
    | .run t => run P n t
    | o => o

theorem run_done {σ : Type} {P : Prim σ} (n : Nat) (s : Vm σ) {v e} (h : run P n s = .done v e) : EndsWith P s v e.globals e.w := by
  induction n generalizing s with
  | zero => simp [run] at h
  | succ n ih =>
    simp only [run] at h
    cases hs : step P s with
    | run t =>
      rw [hs] at h
      obtain ⟨vm', l, h1, h2⟩ := ih t h
      exact ⟨vm', l, .step hs h1, h2⟩
    | done v' e' =>
      rw [hs] at h
      simp only [Out.done.injEq] at h
      obtain ⟨rfl, rfl⟩ := h
      exact ⟨s, e'.line, .refl _, hs⟩
    | abort e' => rw [hs] at h; simp at h
    | fault => rw [hs] at h; simp at h

/-- Value and output of a finished run. -/
def ended : Out Log → Option (Val × Log)
  | .done v e => some (v, e.w)
  | _ => none

/-- The output of a run stopped by an error. -/
def aborted : Out Log → Option Log
  | .abort e => some e.w
  | _ => none

/-- Value and output of an evaluation. -/
def value {α : Type} : R Log α → Option (α × Log)
  | .ok v s => some (v, s.w)
  | _ => none

theorem value_ok {α : Type} {r : R Log α} {v w} (h : value r = some (v, w)) : ∃ s, r = .ok v s ∧ s.w = w := by
  cases r <;> simp [value] at h
  obtain ⟨rfl, rfl⟩ := h
  exact ⟨_, rfl, rfl⟩

/-- An evaluation stopped by an error: the output. -/
def errOut {α : Type} : R Log α → Option Log
  | .err _ w => some w
  | _ => none

theorem errOut_err {α : Type} {r : R Log α} {w} (h : errOut r = some w) : ∃ g, r = .err g w := by
  cases r <;> simp [errOut] at h
  exact ⟨_, by rw [h]⟩

/-! `def fact(n): if n < 2: return 1` / `return n * fact(n - 1)`; `fact` is name 5, `n` is name 6. -/

/-- The body. -/
def factBody : Stmt :=
  .seq (.line 1) (.seq (.ifs (.cmp (.name 6) (.cmp .lt) (.num (lit 2)) .nil) (.seq (.line 2) (.ret (.some (.num (lit 1))))) .none)
    (.seq (.line 3) (.ret (.some (.binary .times (.name 6)
      (.call (.name 5) (.cons (.binary .minus (.name 6) (.num (lit 1))) .nil) .nil))))))

/-- The function table. -/
def defs (k : Nat) : FunDef := if k = 8 then ⟨.nil, factBody⟩ else ⟨.nil, .line 1⟩

/-- Formals. -/
def sig (k : Nat) : FuncSig := if k = 8 then ⟨[6], 1⟩ else ⟨[], 0⟩

/-- The machine. -/
def P : Prim Log := prim 256 defs sig

theorem compiled : Compiled P (fun _ => 0) defs where
  width := by decide
  code k := rfl
  small k := by
    by_cases h : k = 8
    · subst h; decide +kernel
    · simp only [defs, h, if_false]; decide +kernel
  wf k := by
    by_cases h : k = 8
    · subst h
      refine ⟨trivial, ?_, by simp [defs], rfl, fun _ => rfl⟩
      simp [defs, factBody, WfS, WfE, WfOpt, WfElse, WfChain, WfArgs, WfNamed, P, prim, Exprs.length, Named.length]
      decide +kernel
    · simp only [defs, h, if_false]
      exact ⟨trivial, by simp [WfS, P, prim], by simp, rfl, by simp [TailOk, lastIns]⟩

/-- Globals: `fact` is defined. -/
def globals : List (Var Val) := [⟨fn 8, 5⟩]

/-- A machine at the code of an expression, after a line mark. -/
def at_ (e : Expr) : Vm Log :=
  ⟨(emitE 2 (fun _ => 0) e ⟨encodeAll 2 [(.line 1, false)], 0, 0⟩).bytes, 3, num 0, [num 7], ⟨globals, []⟩, 0, [], false⟩

theorem at_expr {e : Expr} (h : ((emitE 2 (fun _ => 0) e ⟨encodeAll 2 [(.line 1, false)], 0, 0⟩).bytes).length < 65536) :
    AtExpr P.W (fun _ => 0) (at_ e) e false ((emitE 2 (fun _ => 0) e ⟨encodeAll 2 [(.line 1, false)], 0, 0⟩).cur) :=
  ⟨⟨encodeAll 2 [(.line 1, false)], 0, 0⟩, [(.line 1, false)], [], rfl, fun _ => rfl, .inl (by simp), rfl, rfl,
    by simp [at_, encodeAll]; rfl, h⟩

end Snek.Lang.Demo
