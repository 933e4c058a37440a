import Verif.Model.Ast
/-!
# String constants of a program

The string constants in source order, and the same program with other strings.
-/
namespace Snek.Lang

mutual
/-- String constants of an expression. -/
def strsE : Expr → List Nat
  | .num _ => []
  | .str o => [o]
  | .name _ => []
  | .unary _ e => strsE e
  | .binary _ a b => strsE a ++ strsE b
  | .and a b => strsE a ++ strsE b
  | .or a b => strsE a ++ strsE b
  | .cmp a _ b more => strsE a ++ (strsE b ++ strsC more)
  | .index a i => strsE a ++ strsE i
  | .slice a b c t => strsE a ++ (strsO b ++ (strsO c ++ strsO t))
  | .call f args named => strsE f ++ (strsA args ++ strsN named)
  | .build _ es => strsA es
/-- Of the links of a comparison. -/
def strsC : Chain → List Nat
  | .nil => []
  | .cons _ e rest => strsE e ++ strsC rest
/-- Of an optional expression. -/
def strsO : OptE → List Nat
  | .none => []
  | .some e => strsE e
/-- Of a list of expressions. -/
def strsA : Exprs → List Nat
  | .nil => []
  | .cons e es => strsE e ++ strsA es
/-- Of named actuals or parameter defaults. -/
def strsN : Named → List Nat
  | .nil => []
  | .cons _ e rest => strsE e ++ strsN rest
end

mutual
/-- String constants of a statement. -/
def strsS : Stmt → List Nat
  | .seq a b => strsS a ++ strsS b
  | .expr e => strsE e
  | .assign _ _ e => strsE e
  | .assignIdx _ a i e => strsE a ++ (strsE i ++ strsE e)
  | .ret e => strsO e
  | .delIdx a i => strsE a ++ strsE i
  | .assert e => strsE e
  | .ifs c t els => strsE c ++ (strsS t ++ strsElse els)
  | .whil c body els => strsE c ++ (strsS body ++ strsS els)
  | .forRange _ args body els => strsA args ++ (strsS body ++ strsS els)
  | .forIn _ e body els => strsE e ++ (strsS body ++ strsS els)
  | _ => []
/-- Of `elif` and `else` parts. -/
def strsElse : Else → List Nat
  | .none => []
  | .els s => strsS s
  | .elif _ c t rest => strsE c ++ (strsS t ++ strsElse rest)
end

mutual
/-- The expression with string constants replaced. -/
def mapStrE (f : Nat → Nat) : Expr → Expr
  | .num u => .num u
  | .str o => .str (f o)
  | .name x => .name x
  | .unary op e => .unary op (mapStrE f e)
  | .binary op a b => .binary op (mapStrE f a) (mapStrE f b)
  | .and a b => .and (mapStrE f a) (mapStrE f b)
  | .or a b => .or (mapStrE f a) (mapStrE f b)
  | .cmp a r b more => .cmp (mapStrE f a) r (mapStrE f b) (mapStrC f more)
  | .index a i => .index (mapStrE f a) (mapStrE f i)
  | .slice a b c t => .slice (mapStrE f a) (mapStrO f b) (mapStrO f c) (mapStrO f t)
  | .call g args named => .call (mapStrE f g) (mapStrA f args) (mapStrN f named)
  | .build k es => .build k (mapStrA f es)
/-- Links of a comparison. -/
def mapStrC (f : Nat → Nat) : Chain → Chain
  | .nil => .nil
  | .cons r e rest => .cons r (mapStrE f e) (mapStrC f rest)
/-- Optional expression. -/
def mapStrO (f : Nat → Nat) : OptE → OptE
  | .none => .none
  | .some e => .some (mapStrE f e)
/-- List of expressions. -/
def mapStrA (f : Nat → Nat) : Exprs → Exprs
  | .nil => .nil
  | .cons e es => .cons (mapStrE f e) (mapStrA f es)
/-- Named actuals. -/
def mapStrN (f : Nat → Nat) : Named → Named
  | .nil => .nil
  | .cons x e rest => .cons x (mapStrE f e) (mapStrN f rest)
end

mutual
/-- The statement with string constants replaced. -/
def mapStrS (f : Nat → Nat) : Stmt → Stmt
  | .skip => .skip
  | .line n => .line n
  | .seq a b => .seq (mapStrS f a) (mapStrS f b)
  | .expr e => .expr (mapStrE f e)
  | .assign op x e => .assign op x (mapStrE f e)
  | .assignIdx op a i e => .assignIdx op (mapStrE f a) (mapStrE f i) (mapStrE f e)
  | .ret e => .ret (mapStrO f e)
  | .brk => .brk
  | .cont => .cont
  | .global x => .global x
  | .del x => .del x
  | .delIdx a i => .delIdx (mapStrE f a) (mapStrE f i)
  | .assert e => .assert (mapStrE f e)
  | .ifs c t els => .ifs (mapStrE f c) (mapStrS f t) (mapStrElse f els)
  | .whil c body els => .whil (mapStrE f c) (mapStrS f body) (mapStrS f els)
  | .forRange x args body els => .forRange x (mapStrA f args) (mapStrS f body) (mapStrS f els)
  | .forIn x e body els => .forIn x (mapStrE f e) (mapStrS f body) (mapStrS f els)
/-- `elif` and `else` parts. -/
def mapStrElse (f : Nat → Nat) : Else → Else
  | .none => .none
  | .els s => .els (mapStrS f s)
  | .elif l c t rest => .elif l (mapStrE f c) (mapStrS f t) (mapStrElse f rest)
end

/-- A function definition with string constants replaced. -/
def mapStrF (f : Nat → Nat) (d : FunDef) : FunDef := ⟨mapStrN f d.defaults, mapStrS f d.body⟩

end Snek.Lang
