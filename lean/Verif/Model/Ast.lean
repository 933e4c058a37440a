import Verif.Model.Bytecode
/-!
# Abstract syntax

What the parser's actions (snek-gram.ll) receive, as a tree. Parentheses and unary plus leave no trace. Names are ids, string
constants the pool offsets of the strings the lexer made. Counts and nesting the parser rejects are excluded by `Wf`
predicates where they matter.
-/
namespace Snek.Lang
open Snek.Vm

mutual
/-- Expressions, snek-gram.ll:296-633. -/
inductive Expr
  | num (u : BitVec 32)
  | str (off : Nat)
  | name (x : Nat)
  | unary (op : UnOp) (e : Expr)
  | binary (op : BinOp) (a b : Expr)
  | and (a b : Expr)
  | or (a b : Expr)
  | cmp (a : Expr) (r : RelOp) (b : Expr) (more : Chain)
  | index (a i : Expr)
  | slice (a : Expr) (start stop stride : OptE)
  | call (f : Expr) (args : Exprs) (named : Named)
  | build (k : MkKind) (es : Exprs)
/-- Lists of expressions (`build .dict` alternates keys and values). -/
inductive Exprs
  | nil
  | cons (e : Expr) (es : Exprs)
/-- `x=e` actuals and parameter defaults. -/
inductive Named
  | nil
  | cons (x : Nat) (e : Expr) (rest : Named)
/-- Further links of a comparison. -/
inductive Chain
  | nil
  | cons (r : RelOp) (e : Expr) (rest : Chain)
/-- Optional expression. -/
inductive OptE
  | none
  | some (e : Expr)
end

/-- Number of expressions. -/
def Exprs.length : Exprs → Nat
  | .nil => 0
  | .cons _ es => es.length + 1

/-- Number of named actuals. -/
def Named.length : Named → Nat
  | .nil => 0
  | .cons _ _ r => r.length + 1

/-- Is there an expression? -/
def OptE.isSome : OptE → Bool
  | .none => false
  | .some _ => true

mutual
/-- Statements, snek-gram.ll:82-294. `line` is the line mark the parser emits before each statement. -/
inductive Stmt
  | skip
  | line (n : Nat)
  | seq (a b : Stmt)
  | expr (e : Expr)
  | assign (op : AOp) (x : Nat) (e : Expr)
  | assignIdx (op : AOp) (a i e : Expr)
  | ret (e : OptE)
  | brk
  | cont
  | global (x : Nat)
  | del (x : Nat)
  | delIdx (a i : Expr)
  | assert (e : Expr)
  | ifs (c : Expr) (t : Stmt) (els : Else)
  | whil (c : Expr) (body els : Stmt)
  | forRange (x : Nat) (args : Exprs) (body els : Stmt)
  | forIn (x : Nat) (e : Expr) (body els : Stmt)
/-- What follows an `if` or `elif` block. -/
inductive Else
  | none
  | els (s : Stmt)
  | elif (line : Nat) (c : Expr) (t : Stmt) (rest : Else)
end

/-- A function definition: parameter defaults (in order) and body. -/
structure FunDef where
  defaults : Named
  body : Stmt

end Snek.Lang
