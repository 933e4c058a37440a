import Verif.Model.Pda
/-!
# How much the parser has to remember

A bound for the number of values the parser keeps at once while it reads a construct: pending operators, jumps to be completed, counts
of elements, the indentations of the blocks it is in. `elif`s count twice each: all of them are completed at the end of the `if`.
-/
namespace Snek.Pda
open Snek.Vm Snek.Lang Snek.Parse

mutual
/-- Expressions. -/
def needE : Expr → Nat
  | .num _ => 1
  | .str _ => 1
  | .name _ => 1
  | .unary _ e => 1 + needE e
  | .binary _ a b => max (needE a) (1 + needE b)
  | .and a b => max (needE a) (1 + needE b)
  | .or a b => max (needE a) (1 + needE b)
  | .cmp a _ b c => max (needE a) (max (2 + needE b) (needC c))
  | .index a i => max (needE a) (needE i)
  | .slice a s e t => max (needE a) (max (needO s) (max (2 + needO e) (3 + needO t)))
  | .call f es ns => max (needE f) (max (1 + needL es) (1 + needN ns))
  | .build .tuple .nil => 1
  | .build .tuple (.cons e es) => max (needE e) (1 + needL es)
  | .build _ es => 1 + needL es
/-- Further comparisons. -/
def needC : Chain → Nat
  | .nil => 0
  | .cons _ e c => max (2 + needE e) (needC c)
/-- Slice bounds. -/
def needO : OptE → Nat
  | .none => 1
  | .some e => needE e
/-- Elements. -/
def needL : Exprs → Nat
  | .nil => 0
  | .cons e es => max (needE e) (needL es)
/-- Named actuals and defaults. -/
def needN : Named → Nat
  | .nil => 0
  | .cons _ e ns => max (needE e) (needN ns)
end

mutual
/-- Statements. -/
def needS : Stmt → Nat
  | .skip => 0
  | .line _ => 0
  | .seq a b => max (needS a) (needS b)
  | .expr e => needE e
  | .assign _ _ e => 2 + needE e
  | .assignIdx _ a i e => max (max (needE a) (needE i)) (2 + needE e)
  | .ret e => needO e
  | .brk => 0
  | .cont => 0
  | .global _ => 0
  | .del _ => 2
  | .delIdx a i => max (max (needE a) (needE i)) 2
  | .assert e => needE e
  | .ifs c t els => max (needE c) (max (2 + needS t) (1 + needElse els))
  | .whil c body els => max (1 + needE c) (max (3 + needS body) (5 + needS els))
  | .forRange _ args body els => max (2 + needL args) (max (3 + needS body) (5 + needS els))
  | .forIn _ e body els => max (1 + needE e) (max (3 + needS body) (5 + needS els))
/-- `elif` and `else`. -/
def needElse : Else → Nat
  | .none => 1
  | .els s => 2 + needS s
  | .elif _ c t rest => max (1 + needE c) (max (3 + needS t) (2 + needElse rest))
end

/-- Commands. -/
def needCmd : Cmd → Nat
  | .stat s => needS s
  | .fn _ _ f => max (1 + needN f.defaults) (2 + needS f.body)
  | .imp => 0

/-- The code of a command (`Model/Compile`). -/
def codeOf (W : Nat) (conv : BitVec 32 → BitVec 8) : Cmd → List Code
  | .stat s => [.stat (emitCommand W conv s)]
  | .fn x xs f => [.fn x xs f.defaults.length (emitDef W conv f)]
  | .imp => []

/-- Number of formals. -/
def formalsOf : Cmd → Nat
  | .fn _ xs _ => xs.length
  | _ => 0

end Snek.Pda
