import Verif.Spec.Syntax
import Verif.Model.ParseStmt
/-!
# Syntax of statements and programs

`Forms c t`: the tokens `t`, each with the line it is on, form what `c` says. Every simple and every compound statement is
preceded by a mark with the line of its first token.
-/
namespace Spec.Program
open Snek Snek.Vm Snek.Lang Snek.Parse Spec.Syntax

/-- The tokens write an expression at a level. -/
def Exp (l : Nat) (x : Expr) (t : List LT) : Prop := Writes (.e l x) (t.map Prod.fst)

/-- What may be deleted. -/
inductive Del : Expr → Stmt → Prop
  | name (x) : Del (.name x) (.del x)
  | index (a i) : Del (.index a i) (.delIdx a i)

/-- What may be assigned to. -/
inductive Assigns (op : AOp) (v : Expr) : Expr → Stmt → Prop
  | name (x) : Assigns op v (.name x) (.assign op x v)
  | index (a i) : Assigns op v (.index a i) (.assignIdx op a i v)

/-- Syntactic categories. -/
inductive SCat
  | names (s : Stmt) | dels (s : Stmt) | small (s : Stmt) | smalls (s : Stmt) | simple (s : Stmt)
  | stat (s : Stmt) | stats (s : Stmt) | suite (s : Stmt) | elifs (e : Else) | orElse (s : Stmt)
  /-- formals; are there only ones with defaults? -/
  | formals (named : Bool) (xs : List Nat) (ns : Named)
  | cmd (c : Cmd) | prog (cs : List Cmd)

/-- How statements are formed. -/
inductive Forms : SCat → List LT → Prop
  | names1 (x n) : Forms (.names (.seq (.global x) .skip)) [(.name x, n)]
  | names {s t} (x n m) : Forms (.names s) t → Forms (.names (.seq (.global x) s)) ((.name x, n) :: (.comma, m) :: t)
  | dels1 {e d t} : Exp 12 e t → Del e d → Forms (.dels (.seq d .skip)) t
  | dels {e d t s u} (m) : Exp 12 e t → Del e d → Forms (.dels s) u → Forms (.dels (.seq d s)) (t ++ (.comma, m) :: u)
  -- small statements
  | ret0 (n) : Forms (.small (.ret .none)) [(.kw .return_, n)]
  | ret {e t} (n) : Exp 0 e t → Forms (.small (.ret (.some e))) ((.kw .return_, n) :: t)
  | brk (n) : Forms (.small .brk) [(.kw .break_, n)]
  | cont (n) : Forms (.small .cont) [(.kw .continue_, n)]
  | pass (n) : Forms (.small .skip) [(.kw .pass, n)]
  | global0 (n) : Forms (.small .skip) [(.kw .global, n)]
  | global {s t} (n) : Forms (.names s) t → Forms (.small s) ((.kw .global, n) :: t)
  | del {s t} (n) : Forms (.dels s) t → Forms (.small s) ((.kw .del, n) :: t)
  | assert {e t} (n) : Exp 0 e t → Forms (.small (.assert e)) ((.kw .assert, n) :: t)
  | assign {e t op v u s} (n) : Exp 0 e t → Exp 0 v u → Assigns op v e s → Forms (.small s) (t ++ (.assign op, n) :: u)
  | expr {e t} : Exp 0 e t → Forms (.small (.expr e)) t
  -- `;`
  | smalls1 {s t} : Forms (.small s) t → Forms (.smalls s) t
  | smalls {s t r u} (n) : Forms (.small s) t → Forms (.smalls r) u → Forms (.smalls (.seq s r)) (t ++ (.semi, n) :: u)
  | simple {s h n t} (m) : Forms (.smalls s) ((h, n) :: t) → Forms (.simple (.seq (.line n) s)) ((h, n) :: t ++ [(.nl, m)])
  -- statements
  | blank (n) : Forms (.stat .skip) [(.nl, n)]
  | stat {s t} : Forms (.simple s) t → Forms (.stat s) t
  | ifs {c t s u e v} (n m) : Exp 0 c t → Forms (.suite s) u → Forms (.elifs e) v →
      Forms (.stat (.seq (.line n) (.ifs c s e))) ((.kw .if_, n) :: t ++ (.colon, m) :: u ++ v)
  | whil {c t s u e v} (n m) : Exp 0 c t → Forms (.suite s) u → Forms (.orElse e) v →
      Forms (.stat (.seq (.line n) (.whil c s e))) ((.kw .while_, n) :: t ++ (.colon, m) :: u ++ v)
  | forIn {c t s u e v} (x n n1 n2 m) : Exp 0 c t → Forms (.suite s) u → Forms (.orElse e) v →
      Forms (.stat (.seq (.line n) (.forIn x c s e)))
        ((.kw .for_, n) :: (.name x, n1) :: (.kw .in_, n2) :: t ++ (.colon, m) :: u ++ v)
  | forRange {es t s u e v} (x n n1 n2 n3 n4 m1 m2) : Writes (.acts es .nil) (t.map Prod.fst) → es.length < 256 →
      Forms (.suite s) u → Forms (.orElse e) v →
      Forms (.stat (.seq (.line n) (.forRange x es s e)))
        ((.kw .for_, n) :: (.name x, n1) :: (.kw .in_, n2) :: (.kw .range, n3) :: (.op, n4) :: t
          ++ (.cp, m1) :: (.colon, m2) :: u ++ v)
  | stats1 {s t} : Forms (.stat s) t → Forms (.stats s) t
  | stats {s t r u} : Forms (.stat s) t → Forms (.stats r) u → Forms (.stats (.seq s r)) (t ++ u)
  -- blocks
  | line {s t} : Forms (.simple s) t → Forms (.suite s) t
  | block {s t} (old new a b c) : Forms (.stats s) t → new ≤ old →
      Forms (.suite s) ((.nl, a) :: (.indent old, b) :: t ++ [(.exdent new, c)])
  | noElse : Forms (.elifs .none) []
  | els {s t} (n m) : Forms (.suite s) t → Forms (.elifs (.els s)) ((.kw .else_, n) :: (.colon, m) :: t)
  | elif {c t s u e v} (n m) : Exp 0 c t → Forms (.suite s) u → Forms (.elifs e) v →
      Forms (.elifs (.elif n c s e)) ((.kw .elif, n) :: t ++ (.colon, m) :: u ++ v)
  | noOrElse : Forms (.orElse .skip) []
  | orElse {s t} (n m) : Forms (.suite s) t → Forms (.orElse s) ((.kw .else_, n) :: (.colon, m) :: t)
  -- functions
  | formal1 (x n) : Forms (.formals false [x] .nil) [(.name x, n)]
  | formal {b xs ns t} (x n m) : Forms (.formals b xs ns) t → Forms (.formals false (x :: xs) ns) ((.name x, n) :: (.comma, m) :: t)
  | named1 {e t} (b x n a m) : Exp 0 e t → Forms (.formals b [x] (.cons x e .nil)) ((.name x, n) :: (.assign a, m) :: t)
  | named {e t xs ns u} (b x n a m m') : Exp 0 e t → Forms (.formals true xs ns) u →
      Forms (.formals b (x :: xs) (.cons x e ns)) ((.name x, n) :: (.assign a, m) :: t ++ (.comma, m') :: u)
  | cmd {s t} : Forms (.stat s) t → Forms (.cmd (.stat s)) t
  | fn0 {s u} (x n1 n2 n3 m1 m2) : Forms (.suite s) u →
      Forms (.cmd (.fn x [] ⟨.nil, s⟩))
        ((.kw .def_, n1) :: (.name x, n2) :: (.op, n3) :: (.cp, m1) :: (.colon, m2) :: u)
  | fn {xs ns t s u} (x n1 n2 n3 m1 m2) : Forms (.formals false xs ns) t → Forms (.suite s) u →
      Forms (.cmd (.fn x xs ⟨ns, s⟩))
        ((.kw .def_, n1) :: (.name x, n2) :: (.op, n3) :: t ++ (.cp, m1) :: (.colon, m2) :: u)
  | imp (x n1 n2) : Forms (.cmd .imp) [(.kw .import_, n1), (.name x, n2)]
  | «from» (x o n1 n2 n3 n4) : level o = 9 →
      Forms (.cmd .imp) [(.kw .from_, n1), (.name x, n2), (.kw .import_, n3), (.bin o, n4)]
  | done (n) : Forms (.prog []) [(.eof, n)]
  | more {c t cs u} : Forms (.cmd c) t → Forms (.prog cs) u → Forms (.prog (c :: cs)) (t ++ u)

end Spec.Program
