import Verif.Model.Ast
/-!
# Programs the code generation theorems are about

Everything the parser accepts, except
* comparison chains in which a link other than the last is `is`, `is not`, `in` or `not in` (the generated code is wrong);
* dictionary displays whose number of keys and values is misread by the code scanner (`DictOk`), when they occur where the
  compiler has to patch jumps: in the operands of a comparison or in the body of an `if` or a loop;
* literals `-0` (the lexer makes none);
* names, string offsets, line numbers and counts too large for their operand (`W` bytes; 255 actuals; named actuals of ids
  above 32767).
-/
namespace Snek.Lang
open Snek.Vm

/-- Displays `{...}` with this many keys and values do not confuse the scanner: its operand bytes look like instructions
without operands. True for up to 2 entries, and for 6 to 14. -/
def DictOk (n : Nat) : Prop :=
  n < 128 ∧ ¬ (6 ≤ n ∧ n ≤ 11) ∧ ¬ (29 ≤ n ∧ n ≤ 49) ∧ ¬ (53 ≤ n ∧ n ≤ 56) ∧ ¬ (58 ≤ n ∧ n ≤ 64) ∧ n ≠ 66

mutual
/-- Expressions; `z`: a jump inside will be patched. -/
def WfE (W : Nat) (z : Bool) : Expr → Prop
  | .num u => u ≠ 0x80000000#32
  | .str o => o < 256 ^ W
  | .name x => x < 256 ^ W
  | .unary _ e => WfE W z e
  | .binary _ a b => WfE W z a ∧ WfE W z b
  | .and a b => WfE W z a ∧ WfE W z b
  | .or a b => WfE W z a ∧ WfE W z b
  | .cmp a r b more => WfE W true a ∧ WfE W true b ∧ WfChain W r more
  | .index a i => WfE W z a ∧ WfE W z i
  | .slice a b c t => WfE W z a ∧ WfOpt W z b ∧ WfOpt W z c ∧ WfOpt W z t
  | .call f args named => WfE W z f ∧ WfArgs W z args ∧ WfNamed W z named ∧ args.length < 256 ∧ named.length < 256
  | .build k es => WfArgs W z es ∧ es.length < 256 ^ W ∧ (z = true → k = .dict → DictOk es.length)
/-- Links of a comparison after operator `r`. -/
def WfChain (W : Nat) (r : RelOp) : Chain → Prop
  | .nil => True
  | .cons r' e rest => (∃ o, r = .cmp o) ∧ WfE W true e ∧ WfChain W r' rest
/-- Optional operands. -/
def WfOpt (W : Nat) (z : Bool) : OptE → Prop
  | .none => True
  | .some e => WfE W z e
/-- Operands. -/
def WfArgs (W : Nat) (z : Bool) : Exprs → Prop
  | .nil => True
  | .cons e es => WfE W z e ∧ WfArgs W z es
/-- Named actuals and defaults. -/
def WfNamed (W : Nat) (z : Bool) : Named → Prop
  | .nil => True
  | .cons x e rest => x ≠ 0 ∧ x < 2 ^ 15 ∧ WfE W z e ∧ WfNamed W z rest
end

mutual
/-- Statements. -/
def WfS (W : Nat) (z : Bool) : Stmt → Prop
  | .skip => True
  | .line n => n < 256 ^ W
  | .seq a b => WfS W z a ∧ WfS W z b
  | .expr e => WfE W z e
  | .assign _ x e => x ≠ 0 ∧ x < 256 ^ W ∧ WfE W z e
  | .assignIdx _ a i e => WfE W z a ∧ WfE W z i ∧ WfE W z e
  | .ret e => WfOpt W z e
  | .brk => True
  | .cont => True
  | .global x => x < 256 ^ W
  | .del x => x ≠ 0 ∧ x < 256 ^ W
  | .delIdx a i => WfE W z a ∧ WfE W z i
  | .assert e => WfE W z e
  | .ifs c t els => WfE W z c ∧ WfS W true t ∧ WfElse W els
  | .whil c body els => WfE W z c ∧ WfS W true body ∧ WfS W z els
  | .forRange x args body els => x ≠ 0 ∧ x < 256 ^ W ∧ args.length < 256 ^ W ∧ WfArgs W z args ∧ WfS W true body ∧ WfS W z els
  | .forIn x e body els => x ≠ 0 ∧ x < 256 ^ W ∧ WfE W z e ∧ WfS W true body ∧ WfS W z els
/-- `elif` and `else`. -/
def WfElse (W : Nat) : Else → Prop
  | .none => True
  | .els s => WfS W true s
  | .elif l c t rest => l < 256 ^ W ∧ WfE W true c ∧ WfS W true t ∧ WfElse W rest
end

mutual
/-- The first thing evaluated is the left operand of a comparison. (The compiler takes offset 0 to mean "no comparison yet"; only
parameter defaults are compiled at offset 0, statements start with a line mark.) -/
def leftCmp : Expr → Bool
  | .num _ => false
  | .str _ => false
  | .name _ => false
  | .unary _ e => leftCmp e
  | .binary _ a _ => leftCmp a
  | .and a _ => leftCmp a
  | .or a _ => leftCmp a
  | .cmp .. => true
  | .index a _ => leftCmp a
  | .slice a _ _ _ => leftCmp a
  | .call f _ _ => leftCmp f
  | .build _ es => leftArgs es
/-- The same for operands. -/
def leftArgs : Exprs → Bool
  | .nil => false
  | .cons e _ => leftCmp e
end

/-- The statement starts with a line mark (as all statements the parser builds do). -/
def startsLine : Stmt → Bool
  | .line _ => true
  | .seq a _ => startsLine a
  | _ => false

/-- The last statement is a `return`. -/
def endsRet : Stmt → Bool
  | .ret _ => true
  | .seq _ b => endsRet b
  | _ => false

mutual
/-- The last instruction of the statement's code: `none` if there is no code, else whether it is a return. -/
def lastIns : Stmt → Option Bool
  | .skip => none
  | .seq a b => (lastIns b).or (lastIns a)
  | .ret _ => some true
  | .ifs _ t els => (lastElse els).or ((lastIns t).or (some false))
  | .whil _ _ els => (lastIns els).or (some false)
  | .forRange _ _ _ els => (lastIns els).or (some false)
  | .forIn _ _ _ els => (lastIns els).or (some false)
  | _ => some false
/-- The same for `elif` and `else`. -/
def lastElse : Else → Option Bool
  | .none => none
  | .els s => (lastIns s).or (some false)
  | .elif _ _ t rest => (lastElse rest).or ((lastIns t).or (some false))
end

/-- The function's body does not end in a conditional `return`: if its last instruction is a return, its last statement
is. -/
def TailOk (s : Stmt) : Prop := lastIns s = some true → endsRet s = true

end Snek.Lang
