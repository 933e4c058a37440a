import Verif.Spec.Lang
/-!
# Chained comparisons

`a r1 b r2 c ...` once `a` has been evaluated to `x`: evaluate the next operand, compare; if that was the last link, or the
comparison is false, its result is the value; otherwise go on with the next link, with the operand just evaluated on the left.
-/
namespace Snek.Lang
open Store (Val)
open Snek.Vm

variable {σ : Type}

/-- Evaluation of an expression gives a value. -/
def Evals (P : Prim σ) (defs : Nat → FunDef) (d : Nat) (e : Expr) (s : St σ) (v : Val) (t : St σ) : Prop :=
  ∃ n, evalE P defs n d e s = .ok v t

/-- The links of a comparison. -/
def Chain.links : Chain → List (RelOp × Expr)
  | .nil => []
  | .cons r e rest => (r, e) :: rest.links

/-- Comparing `x` along a list of links. The operand on the left of a link is pending while the one on the right is
evaluated. -/
inductive Compares (P : Prim σ) (defs : Nat → FunDef) (d : Nat) : Val → List (RelOp × Expr) → St σ → Val → St σ → Prop
  | last {x r e s y t v w} (h1 : Evals P defs (d + 1) e s y t) (h2 : P.rel r x y t.w = (some v, w)) :
      Compares P defs d x [(r, e)] s v ⟨t.fr, w⟩
  | stop {x r e l rest s y t v w} (h1 : Evals P defs (d + 1) e s y t) (h2 : P.rel r x y t.w = (some v, w))
      (h3 : P.truth w v = false) : Compares P defs d x ((r, e) :: l :: rest) s v ⟨t.fr, w⟩
  | go {x r e l rest s y t v w v' u} (h1 : Evals P defs (d + 1) e s y t) (h2 : P.rel r x y t.w = (some v, w))
      (h3 : P.truth w v = true) (h4 : Compares P defs d y (l :: rest) ⟨t.fr, w⟩ v' u) :
      Compares P defs d x ((r, e) :: l :: rest) s v' u

end Snek.Lang
