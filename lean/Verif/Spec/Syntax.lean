import Verif.Model.Parse
/-!
# Syntax of expressions

The language reference, as precedence levels from loosest to tightest:

| level | |
|---|---|
| 0 | `or`, left to right |
| 1 | `and`, left to right |
| 2 | `not` |
| 3 | comparisons, `in`, `is`, chained |
| 4 | bitwise or, left to right |
| 5 | `^`, left to right |
| 6 | `&`, left to right |
| 7 | `<<` `>>`, left to right |
| 8 | `+` `-`, left to right |
| 9 | `*` `/` `//` `%`, left to right |
| 10 | unary `~` `-` `+` |
| 11 | `**`, right to left |
| 12 | indexing, slicing, calls |
| 13 | names, literals, displays, anything in parentheses |

`Writes c t`: the token sequence `t` is a way to write the tree in `c`.
-/
namespace Spec.Syntax
open Snek Snek.Vm Snek.Lang Snek.Parse

/-- Level of a binary operator. -/
def level : BinOp → Nat
  | .lor => 4 | .lxor => 5 | .land => 6 | .lshift => 7 | .rshift => 7 | .plus => 8 | .minus => 8
  | .times => 9 | .divide => 9 | .div => 9 | .mod => 9 | .pow => 11

/-- A comparison operator token. -/
inductive RelTok : RelOp → T → Prop
  | op (r) : RelTok r (.cmpop r)
  | isIn : RelTok .isIn (.kw .in_)
  | is : RelTok .is (.kw .is)

/-- What can be written. -/
inductive Cat
  /-- an expression whose outermost operator binds at least as tightly as the level -/
  | e (l : Nat) (x : Expr)
  /-- adjacent string literals -/
  | strs (x : Expr)
  /-- further comparisons -/
  | chain (c : Chain)
  /-- an optional slice bound -/
  | opt (o : OptE)
  /-- actuals, elements: one or more -/
  | args (es : Exprs) (ns : Named)
  /-- zero or more, perhaps with a trailing comma -/
  | acts (es : Exprs) (ns : Named)
  /-- dictionary entries, one or more -/
  | pairs (es : Exprs)
  /-- zero or more, perhaps with a trailing comma -/
  | ents (es : Exprs)

/-- How things are written. -/
inductive Writes : Cat → List T → Prop
  -- tighter expressions may stand for looser ones
  | lift {l x t} : l < 13 → Writes (.e (l+1) x) t → Writes (.e l x) t
  -- 13
  | name (x) : Writes (.e 13 (.name x)) [.name x]
  | num (u) : Writes (.e 13 (.num u)) [.number u]
  | strs {x t} : Writes (.strs x) t → Writes (.e 13 x) t
  | str (s) : Writes (.strs (.str s)) [.string s]
  | strCat {x t} (s) : Writes (.strs x) t → Writes (.strs (.binary .plus x (.str s))) (t ++ [.string s])
  | paren {x t} : Writes (.e 0 x) t → Writes (.e 13 x) (.op :: t ++ [.cp])
  | tuple0 : Writes (.e 13 (.build .tuple .nil)) [.op, .cp]
  | tuple {x t es u} : Writes (.e 0 x) t → Writes (.acts es .nil) u → es.length < 256 →
      Writes (.e 13 (.build .tuple (.cons x es))) (.op :: t ++ .comma :: u ++ [.cp])
  | list {es u} : Writes (.acts es .nil) u → es.length < 256 → Writes (.e 13 (.build .list es)) (.os :: u ++ [.cs])
  | dict {es u} : Writes (.ents es) u → Writes (.e 13 (.build .dict es)) (.oc :: u ++ [.cc])
  -- 12
  | index {a t i u} : Writes (.e 12 a) t → Writes (.e 0 i) u → Writes (.e 12 (.index a i)) (t ++ .os :: u ++ [.cs])
  | slice {a t s u p v} : Writes (.e 12 a) t → Writes (.opt s) u → Writes (.opt p) v →
      Writes (.e 12 (.slice a s p .none)) (t ++ .os :: u ++ .colon :: v ++ [.cs])
  | stride {a t s u p v q w} : Writes (.e 12 a) t → Writes (.opt s) u → Writes (.opt p) v → Writes (.opt q) w →
      Writes (.e 12 (.slice a s p q)) (t ++ .os :: u ++ .colon :: v ++ .colon :: w ++ [.cs])
  | call {f t es ns u} : Writes (.e 12 f) t → Writes (.acts es ns) u →
      Writes (.e 12 (.call f es ns)) (t ++ .op :: u ++ [.cp])
  -- 11
  | pow {a t b u} : Writes (.e 12 a) t → Writes (.e 11 b) u → Writes (.e 11 (.binary .pow a b)) (t ++ .bin .pow :: u)
  -- 10
  | lnot {x t} : Writes (.e 10 x) t → Writes (.e 10 (.unary .lnot x)) (.lnot :: t)
  | neg {x t} : Writes (.e 10 x) t → Writes (.e 10 (.unary .uminus x)) (.bin .minus :: t)
  | pos {x t} : Writes (.e 10 x) t → Writes (.e 10 x) (.bin .plus :: t)
  -- 4 to 9
  | bin {o a t b u} : o ≠ .pow → Writes (.e (level o) a) t → Writes (.e (level o + 1) b) u →
      Writes (.e (level o) (.binary o a b)) (t ++ .bin o :: u)
  -- 3
  | cmp {a t r s b u c v} : Writes (.e 4 a) t → RelTok r s → Writes (.e 4 b) u → Writes (.chain c) v →
      Writes (.e 3 (.cmp a r b c)) (t ++ s :: u ++ v)
  -- 2, 1, 0
  | not {x t} : Writes (.e 2 x) t → Writes (.e 2 (.unary .not x)) (.kw .not :: t)
  | and {a t b u} : Writes (.e 1 a) t → Writes (.e 2 b) u → Writes (.e 1 (.and a b)) (t ++ .kw .and :: u)
  | or {a t b u} : Writes (.e 0 a) t → Writes (.e 1 b) u → Writes (.e 0 (.or a b)) (t ++ .kw .or :: u)
  -- parts
  | chain0 : Writes (.chain .nil) []
  | chain1 {r s b u c v} : RelTok r s → Writes (.e 4 b) u → Writes (.chain c) v → Writes (.chain (.cons r b c)) (s :: u ++ v)
  | opt0 : Writes (.opt .none) []
  | opt1 {x t} : Writes (.e 0 x) t → Writes (.opt (.some x)) t
  | pos1 {x t} : Writes (.e 0 x) t → Writes (.args (.cons x .nil) .nil) t
  | posC {x t es ns u} : Writes (.e 0 x) t → Writes (.args es ns) u → Writes (.args (.cons x es) ns) (t ++ .comma :: u)
  | nam1 {x t v u} (a) : Writes (.e 0 (.name x)) t → Writes (.e 0 v) u →
      Writes (.args .nil (.cons x v .nil)) (t ++ .assign a :: u)
  | namC {x t v u ns w} (a) : Writes (.e 0 (.name x)) t → Writes (.e 0 v) u → Writes (.args .nil ns) w →
      Writes (.args .nil (.cons x v ns)) (t ++ .assign a :: u ++ .comma :: w)
  | acts0 : Writes (.acts .nil .nil) []
  | acts1 {es ns t} : Writes (.args es ns) t → es.length ≤ 256 → Writes (.acts es ns) t
  | actsC {es ns t} : Writes (.args es ns) t → es.length ≤ 256 → Writes (.acts es ns) (t ++ [.comma])
  | pair {k t v u} : Writes (.e 0 k) t → Writes (.e 0 v) u → Writes (.pairs (.cons k (.cons v .nil))) (t ++ .colon :: u)
  | pairC {k t v u es w} : Writes (.e 0 k) t → Writes (.e 0 v) u → Writes (.pairs es) w →
      Writes (.pairs (.cons k (.cons v es))) (t ++ .colon :: u ++ .comma :: w)
  | ents0 : Writes (.ents .nil) []
  | ents1 {es t} : Writes (.pairs es) t → Writes (.ents es) t
  | entsC {es t} : Writes (.pairs es) t → Writes (.ents es) (t ++ [.comma])

end Spec.Syntax

namespace Spec.Syntax
open Snek Snek.Vm Snek.Lang Snek.Parse

/-- Parentheses when needed. -/
def wrap (need : Bool) (t : List T) : List T := if need then .op :: t ++ [.cp] else t

mutual
/-- An expression written with parentheses only where its operator binds more loosely than level `l`. -/
def text : Nat → Expr → List T
  | _, .num u => [.number u]
  | _, .str s => [.string s]
  | _, .name x => [.name x]
  | l, .unary .not e => wrap (2 < l) (.kw .not :: text 2 e)
  | l, .unary .uminus e => wrap (10 < l) (.bin .minus :: text 10 e)
  | l, .unary .lnot e => wrap (10 < l) (.lnot :: text 10 e)
  | l, .binary .pow a b => wrap (11 < l) (text 12 a ++ .bin .pow :: text 11 b)
  | l, .binary o a b => wrap (level o < l) (text (level o) a ++ .bin o :: text (level o + 1) b)
  | l, .and a b => wrap (1 < l) (text 1 a ++ .kw .and :: text 2 b)
  | l, .or a b => wrap (0 < l) (text 0 a ++ .kw .or :: text 1 b)
  | l, .cmp a r b c => wrap (3 < l) (text 4 a ++ .cmpop r :: text 4 b ++ textChain c)
  | l, .index a i => wrap (12 < l) (text 12 a ++ .os :: text 0 i ++ [.cs])
  | l, .slice a s e .none => wrap (12 < l) (text 12 a ++ .os :: textOpt s ++ .colon :: textOpt e ++ [.cs])
  | l, .slice a s e d => wrap (12 < l) (text 12 a ++ .os :: textOpt s ++ .colon :: textOpt e ++ .colon :: textOpt d ++ [.cs])
  | l, .call f es .nil => wrap (12 < l) (text 12 f ++ .op :: texts es ++ [.cp])
  | l, .call f .nil ns => wrap (12 < l) (text 12 f ++ .op :: textNamed ns ++ [.cp])
  | l, .call f es ns => wrap (12 < l) (text 12 f ++ .op :: (texts es ++ .comma :: textNamed ns) ++ [.cp])
  | _, .build .list es => .os :: texts es ++ [.cs]
  | _, .build .dict es => .oc :: textPairs es ++ [.cc]
  | _, .build .tuple .nil => [.op, .cp]
  | _, .build .tuple (.cons e es) => .op :: text 0 e ++ .comma :: texts es ++ [.cp]
/-- `a < b < c` after the first comparison. -/
def textChain : Chain → List T
  | .nil => []
  | .cons r e c => .cmpop r :: text 4 e ++ textChain c
/-- An optional slice bound. -/
def textOpt : OptE → List T
  | .none => []
  | .some e => text 0 e
/-- Comma separated. -/
def texts : Exprs → List T
  | .nil => []
  | .cons e .nil => text 0 e
  | .cons e es => text 0 e ++ .comma :: texts es
/-- `x=e` actuals. -/
def textNamed : Named → List T
  | .nil => []
  | .cons x e .nil => .name x :: .assign .plain :: text 0 e
  | .cons x e ns => .name x :: .assign .plain :: text 0 e ++ .comma :: textNamed ns
/-- Dictionary entries. -/
def textPairs : Exprs → List T
  | .cons k (.cons v .nil) => text 0 k ++ .colon :: text 0 v
  | .cons k (.cons v es) => text 0 k ++ .colon :: text 0 v ++ .comma :: textPairs es
  | _ => []
end

/-- Keys and values alternate. -/
def Paired : Exprs → Bool
  | .nil => true
  | .cons _ .nil => false
  | .cons _ (.cons _ es) => Paired es

mutual
/-- The compiler's limits: fewer than 256 elements in a list display, at most 256 in a tuple display and in a call. -/
def Fits : Expr → Bool
  | .num _ => true
  | .str _ => true
  | .name _ => true
  | .unary _ e => Fits e
  | .binary _ a b => Fits a && Fits b
  | .and a b => Fits a && Fits b
  | .or a b => Fits a && Fits b
  | .cmp a _ b c => Fits a && Fits b && FitsC c
  | .index a i => Fits a && Fits i
  | .slice a s e d => Fits a && FitsO s && FitsO e && FitsO d
  | .call f es ns => Fits f && FitsL es && FitsN ns && decide (es.length ≤ 256)
  | .build .list es => FitsL es && decide (es.length < 256)
  | .build .tuple es => FitsL es && decide (es.length ≤ 256)
  | .build .dict es => FitsL es && Paired es
/-- The rest of a comparison. -/
def FitsC : Chain → Bool
  | .nil => true
  | .cons _ e c => Fits e && FitsC c
/-- A slice bound. -/
def FitsO : OptE → Bool
  | .none => true
  | .some e => Fits e
/-- Elements. -/
def FitsL : Exprs → Bool
  | .nil => true
  | .cons e es => Fits e && FitsL es
/-- Named actuals. -/
def FitsN : Named → Bool
  | .nil => true
  | .cons _ e ns => Fits e && FitsN ns
end

/-- Tokens after which an expression is complete. -/
def Finishes : T → Prop
  | .nl | .eof | .colon | .semi | .comma | .cp | .cs | .cc | .assign _ | .exdent _ | .indent _ | .invalid => True
  | _ => False

end Spec.Syntax
