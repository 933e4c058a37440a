import Verif.Spec.Run
import Verif.Model.ParseStmt
/-!
# What a program does

A program is a sequence of commands: statements and function definitions. Each acts on the global variables and the world; the first error
ends the program.
-/
namespace Snek.Lang
open Store (Val)
open Snek.Vm Snek.Parse

variable {σ : Type}

/-- The program (commands from number `n` on) takes globals and world from one state to another; `failed`: by an error. A definition makes
its name refer to a new function object, for command number `n` the object `place n`; `defs` is what the function objects stand for. -/
inductive Program (P : Prim σ) (defs : Nat → FunDef) (place : Nat → Val) :
    Nat → List Cmd → List (Var Val) → σ → List (Var Val) → σ → (failed : Bool) → Prop
  | done {n g w} : Program P defs place n [] g w g w false
  | finishes {n k c l g w t g' w' b} (h : execS P defs k 0 0 c ⟨⟨g, []⟩, w⟩ = .ok .normal t) (r : Program P defs place (n + 1) l t.fr.globals t.w g' w' b) :
      Program P defs place n (.stat c :: l) g w g' w' b
  | returns {n k c l g w v t g' w' b} (h : execS P defs k 0 0 c ⟨⟨g, []⟩, w⟩ = .ok (.ret v) t) (r : Program P defs place (n + 1) l t.fr.globals t.w g' w' b) :
      Program P defs place n (.stat c :: l) g w g' w' b
  | fails {n k c l g w g' w'} (h : execS P defs k 0 0 c ⟨⟨g, []⟩, w⟩ = .err g' w') : Program P defs place n (.stat c :: l) g w g' w' true
  | strayBreak {n k c l g w t f} (h : execS P defs k 0 0 c ⟨⟨g, []⟩, w⟩ = .ok f t) (hf : f = .brk ∨ f = .cont) :
      Program P defs place n (.stat c :: l) g w t.fr.globals t.w true
  | define {n x xs d l g w g1 w1 g' w' b} (ht : (place n).type = .func) (hd : defs (place n).ref = d)
      (hs : P.sig (place n).ref = ⟨xs, xs.length - d.defaults.length⟩)
      (h : assignId P .plain x (place n) (⟨g, []⟩ : Frames Val Unit) w = (some (place n), ⟨g1, []⟩, w1))
      (r : Program P defs place (n + 1) l g1 w1 g' w' b) : Program P defs place n (.fn x xs d :: l) g w g' w' b
  | imp {n l g w g' w' b} (r : Program P defs place (n + 1) l g w g' w' b) : Program P defs place n (.imp :: l) g w g' w' b

/-- The statement is one the theorems about the compiler are about. -/
structure StatOk (W : Nat) (conv : BitVec 32 → BitVec 8) (s : Stmt) : Prop where
  wf : WfS W false s
  small : (emitCommand W conv s).length < 256 ^ W

end Snek.Lang
