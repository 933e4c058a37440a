import Verif.Spec.Lang
import Verif.Spec.LangWf
import Verif.Model.Compile
/-!
# Running the machine

What it means that the machine gets from one state to another and that a run ends; how the evaluator's state is read off the
machine; which programs the compiler theorems are about.
-/
namespace Snek.Lang
open Store (Val)
open Snek.Vm

variable {σ γ : Type}

/-- The machine gets from one state to the other in some number of steps. -/
inductive Steps (P : Prim σ) : Vm σ → Vm σ → Prop
  | refl (s) : Steps P s s
  | step {s t u} (h : step P s = .run t) (r : Steps P t u) : Steps P s u

/-- The run ends normally with value `v` (what the prompt prints), these globals and this world. -/
def EndsWith (P : Prim σ) (vm : Vm σ) (v : Val) (g : List (Var Val)) (w : σ) : Prop :=
  ∃ vm' line, Steps P vm vm' ∧ step P vm' = .done v ⟨g, w, line⟩

/-- The run is stopped by an error, leaving these globals and this world. -/
def StopsWith (P : Prim σ) (vm : Vm σ) (g : List (Var Val)) (w : σ) : Prop :=
  ∃ vm' line, Steps P vm vm' ∧ step P vm' = .abort ⟨g, w, line⟩

/-- The statement does not end when started with these globals in this world: its evaluation is cut off whatever the fuel. -/
def Endless (P : Prim σ) (defs : Nat → FunDef) (c : Stmt) (g : List (Var Val)) (w : σ) : Prop :=
  ∀ n, ∃ g' w', execS P defs n 0 0 c ⟨⟨g, []⟩, w⟩ = .time g' w'

/-- The machine gets from one state to the other with more than `k` calls active all the time. -/
inductive StepsAbove (P : Prim σ) (k : Nat) : Vm σ → Vm σ → Prop
  | refl (s) (h : k < s.fr.frames.length) : StepsAbove P k s s
  | step {s t u} (h0 : k < s.fr.frames.length) (h : step P s = .run t) (r : StepsAbove P k t u) : StepsAbove P k s u

/-- The variables a running function sees: the globals and its own. -/
def visible (fr : Frames Val γ) : Frames Val Unit := ⟨fr.globals, (fr.frames.take 1).map fun f => ⟨f.vars, (), 0⟩⟩

/-- The same activation: same code, same callers with their variables and return addresses. Only the running function's
variables may differ. -/
structure SameActivation (a b : Vm σ) : Prop where
  code : b.code = a.code
  callers : b.fr.frames.tail = a.fr.frames.tail
  back : b.fr.frames.map (fun f => (f.code, f.ip)) = a.fr.frames.map (fun f => (f.code, f.ip))

/-- The bytes of a list of instructions. -/
def encodeAll (W : Nat) (l : List (Ins × Bool)) : List UInt8 := l.flatMap fun i => encode W i.1 i.2

/-- The machine is about to execute the code the compiler makes for `e` when it has already compiled the instructions `before`
and then goes on with `rest` at offset `after`. `p`: the value is an operand of something, so the compiler sets the push flag on
it. -/
def AtExpr (W : Nat) (conv : BitVec 32 → BitVec 8) (vm : Vm σ) (e : Expr) (p : Bool) (after : Nat) : Prop :=
  ∃ (b : Buf) (before rest : List (Ins × Bool)),
    b.bytes = encodeAll W before ∧ (before ≠ [] → b.prev = (encodeAll W before.dropLast).length) ∧
    (before ≠ [] ∨ leftCmp e = false) ∧
    vm.ip = b.cur ∧
    after = (if p then (emitE W conv e b).pushPrev else emitE W conv e b).cur ∧
    vm.code = (if p then (emitE W conv e b).pushPrev else emitE W conv e b).bytes ++ encodeAll W rest ∧
    vm.code.length < 256 ^ W

/-- The machine evaluates the expression it is at: it gets to the end of the expression's code with this value, with pending
operands and callers as before, leaving variables and world as in `s`. -/
def Yields (P : Prim σ) (vm : Vm σ) (p : Bool) (after : Nat) (v : Val) (s : St σ) : Prop :=
  ∃ vm', Steps P vm vm' ∧ SameActivation vm vm' ∧ vm'.ip = after ∧ vm'.acc = v ∧
    vm'.stack = (if p then v :: vm.stack else vm.stack) ∧ visible vm'.fr = s.fr ∧ vm'.w = s.w ∧ vm'.pend = false

/-- What the theorems require of a function definition. -/
structure FunWf (W : Nat) (f : FunDef) : Prop where
  defaults : WfNamed W false f.defaults
  body : WfS W false f.body
  first : ∀ x e rest, f.defaults = .cons x e rest → leftCmp e = false
  line : startsLine f.body = true
  tail : TailOk f.body

/-- The machine's function table holds the code the compiler makes for `defs`, and no code is larger than an offset can
express. -/
structure Compiled (P : Prim σ) (conv : BitVec 32 → BitVec 8) (defs : Nat → FunDef) : Prop where
  width : 2 ≤ P.W
  wf : ∀ k, FunWf P.W (defs k)
  code : ∀ k, P.code k = emitDef P.W conv (defs k)
  small : ∀ k, (emitDef P.W conv (defs k)).length < 256 ^ P.W - 1

/-- A command the theorems are about. -/
structure CmdWf (W : Nat) (conv : BitVec 32 → BitVec 8) (s : Stmt) : Prop where
  wf : WfS W false s
  line : startsLine s = true
  small : (emitCommand W conv s).length < 256 ^ W

end Snek.Lang
