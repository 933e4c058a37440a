import Verif.Spec.Run
/-!
# What a session does

A session is a sequence of commands; each acts on the global variables and the world as the meaning of the language says, and displays a
value, an error message or nothing. Nothing else is carried from one command to the next.
-/
namespace Snek.Lang
open Store (Val)
open Snek.Vm

/-- Something typed at the prompt: an expression, other statements, a function definition, or something that is not a command. -/
inductive Typed (μ : Type)
  | expr (l : Nat) (e : Expr)
  | stmts (c : Stmt)
  | define (x : Nat) (f : Val)
  | garbage (m : μ)

variable {σ μ : Type}

/-- A command takes globals and world from one state to another and displays this (`none`: an error message). `under` is the name `_`. -/
inductive Does (P : Prim σ) (defs : Nat → FunDef) (under : Nat) : Typed μ → List (Var Val) → σ → List (Var Val) → σ → List (Option Val) → Prop
  | value {n l e g w v s g' w'} (h : evalE P defs n 0 e ⟨⟨g, []⟩, w⟩ = .ok v s) (hv : v ≠ Val.none)
      (hs : assignId P .plain under v (⟨s.fr.globals, []⟩ : Frames Val Unit) s.w = (some v, ⟨g', []⟩, w')) : Does P defs under (.expr l e) g w g' w' [some v]
  | noValue {n l e g w s} (h : evalE P defs n 0 e ⟨⟨g, []⟩, w⟩ = .ok Val.none s) : Does P defs under (.expr l e) g w s.fr.globals s.w []
  | exprFails {n l e g w g' w'} (h : evalE P defs n 0 e ⟨⟨g, []⟩, w⟩ = .err g' w') : Does P defs under (.expr l e) g w g' w' [none]
  | finishes {n c g w t} (h : execS P defs n 0 0 c ⟨⟨g, []⟩, w⟩ = .ok .normal t) : Does P defs under (.stmts c) g w t.fr.globals t.w []
  | returns {n c g w v t} (h : execS P defs n 0 0 c ⟨⟨g, []⟩, w⟩ = .ok (.ret v) t) : Does P defs under (.stmts c) g w t.fr.globals t.w []
  | fails {n c g w g' w'} (h : execS P defs n 0 0 c ⟨⟨g, []⟩, w⟩ = .err g' w') : Does P defs under (.stmts c) g w g' w' [none]
  | strayBreak {n c g w t f} (h : execS P defs n 0 0 c ⟨⟨g, []⟩, w⟩ = .ok f t) (hf : f = .brk ∨ f = .cont) :
      Does P defs under (.stmts c) g w t.fr.globals t.w [none]
  | define {x f g w g' w'} (hs : assignId P .plain x f (⟨g, []⟩ : Frames Val Unit) w = (some f, ⟨g', []⟩, w')) : Does P defs under (.define x f) g w g' w' []
  | garbage {m g w} : Does P defs under (.garbage m) g w g w [none]

/-- A sequence of commands. -/
inductive Session (P : Prim σ) (defs : Nat → FunDef) (under : Nat) : List (Typed μ) → List (Var Val) → σ → List (Var Val) → σ → List (Option Val) → Prop
  | nil {g w} : Session P defs under [] g w g w []
  | cons {i l g w g1 w1 g2 w2 o1 o2} (h : Does P defs under i g w g1 w1 o1) (r : Session P defs under l g1 w1 g2 w2 o2) :
      Session P defs under (i :: l) g w g2 w2 (o1 ++ o2)

/-- The commands the theorems about the compiler are about. -/
def TypedWf (W : Nat) (conv : BitVec 32 → BitVec 8) : Typed μ → Prop
  | .expr l e => CmdWf W conv (.seq (.line l) (.expr e))
  | .stmts c => CmdWf W conv c
  | _ => True

end Snek.Lang
