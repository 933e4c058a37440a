import Verif.Model.Ast
import Verif.Model.Lex
/-!
# Parser: expressions

The grammar of snek-gram.ll read by a predictive (LL(1)) parser, one function per nonterminal (the chain of binary levels is one
function with the level as argument). The table-driven parser that `lola` generates from the grammar is not in the repository;
it is taken to be the LL(1) parser of that grammar: a production is chosen by the next token, a nullable nonterminal is skipped
when the next token starts none of its other productions. The actions are modelled by the tree they describe (`Lang.Expr`;
the code they emit for it is `Model/Compile`).

Simplifications: the parse stack and the value stack are unbounded (PARSE_STACK_SIZE, VALUE_STACK_SIZE, snek-parse.c:49-151; they are
in `Model/Pda`, and C76 says for which programs that makes no difference);
slices and dictionaries are compiled in; `offset` in `actuals` does not wrap at 2^16 (256 named actuals).
`none` is a syntax error or lack of fuel; the theorems quantify over the fuel.
-/
namespace Snek.Parse
open Snek.Vm Snek.Lang Snek.Lex

/-- Tokens with the values the actions use: `snek_token_val.id`, `.number`, `.string` (as a pool offset), `.op`, `.indent`.
The terminals PLUS, MINUS, POW, MULOP, LAND, LOR, LXOR, SHIFT are `bin` with their operator (`ofTok`). -/
inductive T
  | eof | nl | indent (old : Nat) | exdent (new : Nat) | invalid
  | colon | semi | comma | op | cp | os | cs | oc | cc
  | bin (o : BinOp) | lnot | cmpop (r : RelOp) | assign (a : AOp)
  | name (x : Nat) | number (u : BitVec 32) | string (s : Nat) | kw (k : Kw)
  deriving DecidableEq, Repr

/-- What the parser sees of a token: names interned to ids (snek-lex.c:549-565), number text converted (:273), strings
stored in the pool (:287-292). -/
def ofTok (id : List Ch → Nat) (num : List Ch → BitVec 32) (str : List Ch → Nat) : Tok → T
  | .eof => .eof | .nl => .nl | .indent n => .indent n | .exdent n => .exdent n | .invalid => .invalid
  | .colon => .colon | .semi => .semi | .comma => .comma
  | .op => .op | .cp => .cp | .os => .os | .cs => .cs | .oc => .oc | .cc => .cc
  | .plus => .bin .plus | .minus => .bin .minus | .pow => .bin .pow | .mulop o => .bin o
  | .land => .bin .land | .lor => .bin .lor | .lxor => .bin .lxor | .shift o => .bin o
  | .lnot => .lnot | .cmpop r => .cmpop r | .assign a => .assign a
  | .name t => .name (id t) | .number t => .number (num t) | .string t => .string (str t) | .kw k => .kw k

/-- The tokens that can start an `expr`, snek-gram.ll:296-530 (FIRST set). -/
def startsExpr : List T → Bool
  | .kw .not :: _ | .lnot :: _ | .bin .minus :: _ | .bin .plus :: _ | .op :: _ | .os :: _ | .oc :: _ | .name _ :: _
  | .number _ :: _ | .string _ :: _ => true
  | _ => false

/-- Operator tokens of the left associative levels: `expr-lor-p` (4, :360), `expr-lxor-p` (5, :365), `expr-land-p` (6, :370),
`expr-shift-p` (7, :375), `expr-add-p` (8, :380-381), `expr-mul-p` (9, :386). -/
def binTok (l : Nat) : T → Option BinOp
  | .bin .lor => if l = 4 then some .lor else none
  | .bin .lxor => if l = 5 then some .lxor else none
  | .bin .land => if l = 6 then some .land else none
  | .bin .lshift => if l = 7 then some .lshift else none
  | .bin .rshift => if l = 7 then some .rshift else none
  | .bin .plus => if l = 8 then some .plus else none
  | .bin .minus => if l = 8 then some .minus else none
  | .bin .times => if l = 9 then some .times else none
  | .bin .divide => if l = 9 then some .divide else none
  | .bin .div => if l = 9 then some .div else none
  | .bin .mod => if l = 9 then some .mod else none
  | _ => none

/-- `cmpop`, snek-gram.ll:354-357. -/
def relTok : T → Option RelOp
  | .cmpop r => some r
  | .kw .in_ => some .isIn
  | .kw .is => some .is
  | _ => none

/-- `strings-p`, snek-gram.ll:522-530. -/
def stringsP (a : Expr) : List T → Expr × List T
  | .string s :: ts => stringsP (.binary .plus a (.str s)) ts
  | ts => (a, ts)

mutual
/-- The chain `expr` (0), `expr-and` (1), `expr-not` (2), `expr-cmp` (3), `expr-lor` (4), `expr-lxor` (5), `expr-land` (6),
`expr-shift` (7), `expr-add` (8), `expr-mul` (9), `expr-unary` (10), `expr-pow` (11), `expr-array` (12), `expr-prim` (13),
snek-gram.ll:296-530. -/
def lvl : Nat → Nat → List T → Option (Expr × List T)
  | 0, _, _ => none
  | k+1, 2, .kw .not :: ts => do let (e, ts) ← lvl k 2 ts; some (.unary .not e, ts)             -- :315
  | k+1, 2, ts => lvl k 3 ts                                                                     -- :314
  | k+1, 10, .lnot :: ts => do let (e, ts) ← lvl k 10 ts; some (.unary .lnot e, ts)              -- :389
  | k+1, 10, .bin .minus :: ts => do let (e, ts) ← lvl k 10 ts; some (.unary .uminus e, ts)      -- :390
  | k+1, 10, .bin .plus :: ts => lvl k 10 ts                                                     -- :391
  | k+1, 10, ts => lvl k 11 ts                                                                   -- :392
  | k+1, 13, ts => prim k ts
  | k+1, l, ts => do let (a, ts) ← lvl k (l + 1) ts; tail k l a ts

/-- The `-p` nonterminals of the chain: what may follow an operand `a` at a level. -/
def tail : Nat → Nat → Expr → List T → Option (Expr × List T)
  | 0, _, _, _ => none
  | k+1, 0, a, .kw .or :: ts => do let (b, ts) ← lvl k 1 ts; tail k 0 (.or a b) ts               -- :298-304
  | k+1, 1, a, .kw .and :: ts => do let (b, ts) ← lvl k 2 ts; tail k 1 (.and a b) ts             -- :307-313
  | k+1, 3, a, t :: ts =>                                                                        -- :330-353
    match relTok t with
    | some r => do let (b, ts) ← lvl k 4 ts; let (c, ts) ← chain k ts; some (.cmp a r b c, ts)
    | none => some (a, t :: ts)
  | k+1, 11, a, .bin .pow :: ts => do let (b, ts) ← lvl k 11 ts; some (.binary .pow a b, ts)     -- :400-402
  | k+1, 12, a, .os :: ts => do                                                                  -- :405-430
    let (x, ts) ← arrayIndex k a ts
    match ts with
    | .cs :: ts => tail k 12 x ts
    | _ => none
  | k+1, 12, a, .op :: ts => do                                                                  -- :431-439
    let (es, ns, ts) ← optActuals k ts
    match ts with
    | .cp :: ts => tail k 12 (.call a es ns) ts
    | _ => none
  | k+1, l, a, t :: ts =>                                                                        -- :360-388
    match binTok l t with
    | some o => do let (b, ts) ← lvl k (l + 1) ts; tail k l (.binary o a b) ts
    | none => some (a, t :: ts)
  | _+1, _, a, [] => some (a, [])

/-- `expr-cmp-p` after the first link, snek-gram.ll:330-353. -/
def chain : Nat → List T → Option (Chain × List T)
  | 0, _ => none
  | k+1, t :: ts =>
    match relTok t with
    | some r => do let (b, ts) ← lvl k 4 ts; let (c, ts) ← chain k ts; some (.cons r b c, ts)
    | none => some (.nil, t :: ts)
  | _+1, [] => some (.nil, [])

/-- `array-index`, `opt-slice`, snek-gram.ll:443-459. -/
def arrayIndex : Nat → Expr → List T → Option (Expr × List T)
  | 0, _, _ => none
  | k+1, a, ts =>
    if startsExpr ts then do
      let (i, ts) ← lvl k 0 ts
      match ts with
      | .colon :: ts => slice k a (.some i) ts
      | ts => some (.index a i, ts)
    else match ts with
      | .colon :: ts => slice k a .none ts
      | _ => none

/-- `slice` after its colon and `slice-p`, snek-gram.ll:460-470. -/
def slice : Nat → Expr → OptE → List T → Option (Expr × List T)
  | 0, _, _, _ => none
  | k+1, a, s, ts => do
    let (e, ts) ← optExpr k ts
    match ts with
    | .colon :: ts => do let (d, ts) ← optExpr k ts; some (.slice a s e d, ts)
    | ts => some (.slice a s e .none, ts)

/-- `opt-expr`, snek-gram.ll:471-480. -/
def optExpr : Nat → List T → Option (OptE × List T)
  | 0, _ => none
  | k+1, ts => if startsExpr ts then do let (e, ts) ← lvl k 0 ts; some (.some e, ts) else some (.none, ts)

/-- `expr-prim`, `opt-tuple`, snek-gram.ll:482-556. -/
def prim : Nat → List T → Option (Expr × List T)
  | 0, _ => none
  | k+1, .op :: ts =>                                                                            -- :482-487, 532-556
    if startsExpr ts then do
      let (e, ts) ← lvl k 0 ts
      match ts with
      | .cp :: ts => some (e, ts)
      | .comma :: ts => do
        let (es, ns, ts) ← optActuals k ts
        if es.length + 256 * ns.length ≥ 256 then none else
        match ts with
        | .cp :: ts => some (.build .tuple (.cons e es), ts)
        | _ => none
      | _ => none
    else match ts with
      | .cp :: ts => some (.build .tuple .nil, ts)
      | _ => none
  | k+1, .os :: ts => do                                                                         -- :488-494
    let (es, ns, ts) ← optActuals k ts
    match ts with
    | .cs :: ts => if es.length + 256 * ns.length ≥ 256 then none else some (.build .list es, ts)
    | _ => none
  | k+1, .oc :: ts => do                                                                         -- :496-506
    let (es, ts) ← optEnts k ts
    match ts with
    | .cc :: ts => some (.build .dict es, ts)
    | _ => none
  | _+1, .name x :: ts => some (.name x, ts)                                                     -- :508-511
  | _+1, .number u :: ts => some (.num u, ts)                                                    -- :512-515
  | _+1, .string s :: ts => some (stringsP (.str s) ts)                                          -- :516-520
  | _+1, _ => none

/-- `opt-actuals`, snek-gram.ll:557-563. -/
def optActuals : Nat → List T → Option (Exprs × Named × List T)
  | 0, _ => none
  | k+1, ts => if startsExpr ts then actuals k 0 false ts else some (.nil, .nil, ts)

/-- `actuals` and `actuals-end`, snek-gram.ll:564-611; `n` positional actuals so far, `nm`: a named one was seen. -/
def actuals : Nat → Nat → Bool → List T → Option (Exprs × Named × List T)
  | 0, _, _, _ => none
  | k+1, n, nm, ts => do
    let (e, ts) ← lvl k 0 ts
    match ts with
    | .assign _ :: ts =>                                                                         -- :571-594
      match e with
      | .name x => do
        let (v, ts) ← lvl k 0 ts
        let (es, ns, ts) ← actualsP k n true ts
        some (es, .cons x v ns, ts)
      | _ => none
    | ts =>                                                                                      -- :595-604
      if nm || 256 ≤ n then none else do
        let (es, ns, ts) ← actualsP k (n + 1) false ts
        some (.cons e es, ns, ts)

/-- `actuals-p`, snek-gram.ll:606-611. -/
def actualsP : Nat → Nat → Bool → List T → Option (Exprs × Named × List T)
  | 0, _, _, _ => none
  | k+1, n, nm, .comma :: ts => if startsExpr ts then actuals k n nm ts else some (.nil, .nil, ts)
  | _+1, _, _, ts => some (.nil, .nil, ts)

/-- `opt-dict-ents`, `dict-ents-end`, snek-gram.ll:613-621. -/
def optEnts : Nat → List T → Option (Exprs × List T)
  | 0, _ => none
  | k+1, ts => if startsExpr ts then ents k ts else some (.nil, ts)

/-- `dict-ent`, `dict-ents-p`, snek-gram.ll:616-632. -/
def ents : Nat → List T → Option (Exprs × List T)
  | 0, _ => none
  | k+1, ts => do
    let (a, ts) ← lvl k 0 ts
    match ts with
    | .colon :: ts => do
      let (b, ts) ← lvl k 0 ts
      match ts with
      | .comma :: ts => do let (es, ts) ← optEnts k ts; some (.cons a (.cons b es), ts)
      | ts => some (.cons a (.cons b .nil), ts)
    | _ => none
end

end Snek.Parse
