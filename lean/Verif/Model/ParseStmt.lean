import Verif.Model.Parse
/-!
# Parser: statements

snek-gram.ll:14-294 over tokens paired with the line number `snek_line` has once the token is read (`lex`, snek-parse.c:153-161).
An action that runs before a token is matched sees the line of that token: it is the lookahead by which the production was
chosen; an action that follows a token sees that token's line (the next token is read only when it is needed: the actions use
`snek_token_val` of the token just matched). The lexer's `snek_current_indent`, which the parser sets at the end of a suite, is in
`Model/Layout`.
-/
namespace Snek.Parse
open Snek.Vm Snek.Lang Snek.Lex

/-- A token and its line. -/
abbrev LT := T × Nat

/-- An expression nonterminal on tokens with lines. -/
def exprL (k l : Nat) (ts : List LT) : Option (Expr × List LT) :=
  match lvl k l (ts.map Prod.fst) with
  | some (e, r) => some (e, ts.drop (ts.length - r.length))
  | none => none

/-- `opt-actuals` on tokens with lines. -/
def optActualsL (k : Nat) (ts : List LT) : Option (Exprs × Named × List LT) :=
  match optActuals k (ts.map Prod.fst) with
  | some (es, ns, r) => some (es, ns, ts.drop (ts.length - r.length))
  | none => none

/-- FIRST set of `expr`. -/
def startsE (ts : List LT) : Bool := startsExpr (ts.map Prod.fst)

/-- FIRST set of `small-stat`, snek-gram.ll:95-107. -/
def startsSmall : List LT → Bool
  | (.kw .return_, _) :: _ | (.kw .break_, _) :: _ | (.kw .continue_, _) :: _ | (.kw .pass, _) :: _ | (.kw .global, _) :: _
  | (.kw .del, _) :: _ | (.kw .assert, _) :: _ => true
  | ts => startsE ts

/-- FIRST set of `stat`, snek-gram.ll:85-89. -/
def startsStat : List LT → Bool
  | (.kw .if_, _) :: _ | (.kw .while_, _) :: _ | (.kw .for_, _) :: _ | (.nl, _) :: _ => true
  | ts => startsSmall ts

/-- `globals`, `globals-p`, snek-gram.ll:160-170: after a name. -/
def globalsP : List LT → Option (Stmt × List LT)
  | (.comma, _) :: (.name x, _) :: ts => do let (s, ts) ← globalsP ts; some (.seq (.global x) s, ts)
  | (.comma, _) :: _ => none
  | ts => some (.skip, ts)

/-- The action of `del` with `extract_lvalue`, snek-gram.ll:113-119, 128-156: the operand must end in a variable reference or an
indexing instruction, that is be a name or an indexing. -/
def delOf : Expr → Option Stmt
  | .name x => some (.del x)
  | .index a i => some (.delIdx a i)
  | _ => none

/-- `extract_lvalue`, snek-gram.ll:126-158. -/
def assignOf (op : AOp) (e v : Expr) : Option Stmt :=
  match e with
  | .name x => some (.assign op x v)
  | .index a i => some (.assignIdx op a i v)
  | _ => none

/-- `dels-p`, snek-gram.ll:109-112. -/
def delsP : Nat → List LT → Option (Stmt × List LT)
  | 0, _ => none
  | k+1, (.comma, _) :: ts => do
    let (e, ts) ← exprL k 12 ts
    let d ← delOf e
    let (s, ts) ← delsP k ts
    some (.seq d s, ts)
  | _+1, ts => some (.skip, ts)

/-- `small-stat`, snek-gram.ll:95-170. -/
def small (k : Nat) : List LT → Option (Stmt × List LT)
  | (.kw .return_, _) :: ts =>                                                                   -- :96-97, 120-123
    if startsE ts then do let (e, ts) ← exprL k 0 ts; some (.ret (.some e), ts) else some (.ret .none, ts)
  | (.kw .break_, _) :: ts => some (.brk, ts)                                                    -- :98-99
  | (.kw .continue_, _) :: ts => some (.cont, ts)                                                -- :100-101
  | (.kw .pass, _) :: ts => some (.skip, ts)                                                     -- :102
  | (.kw .global, _) :: (.name x, _) :: ts => do                                                 -- :103, 160-170
    let (s, ts) ← globalsP ts
    some (.seq (.global x) s, ts)
  | (.kw .global, _) :: ts => some (.skip, ts)
  | (.kw .del, _) :: ts => do                                                                    -- :104, 109-119
    let (e, ts) ← exprL k 12 ts
    let d ← delOf e
    let (s, ts) ← delsP k ts
    some (.seq d s, ts)
  | (.kw .assert, _) :: ts => do let (e, ts) ← exprL k 0 ts; some (.assert e, ts)                -- :105-106
  | ts => do                                                                                     -- :95, 124-159
    let (e, ts) ← exprL k 0 ts
    match ts with
    | (.assign op, _) :: ts => do
      let (v, ts) ← exprL k 0 ts
      let s ← assignOf op e v
      some (s, ts)
    | ts => some (.expr e, ts)

/-- `small-stat small-stats-p`, snek-gram.ll:90-94. -/
def smalls : Nat → List LT → Option (Stmt × List LT)
  | 0, _ => none
  | k+1, ts => do
    let (s, ts) ← small k ts
    match ts with
    | (.semi, _) :: ts => do let (r, ts) ← smalls k ts; some (.seq s r, ts)
    | ts => some (s, ts)

/-- `simple-stat`, snek-gram.ll:90-91. -/
def simple (k : Nat) (ts : List LT) : Option (Stmt × List LT) :=
  match ts with
  | [] => none
  | (_, n) :: _ => do
    let (s, r) ← smalls k ts
    match r with
    | (.nl, _) :: r => some (.seq (.line n) s, r)
    | _ => none

mutual
/-- `stat`, `compound-stat`, snek-gram.ll:85-89, 171-277. -/
def stat : Nat → List LT → Option (Stmt × List LT)
  | 0, _ => none
  | _+1, (.nl, _) :: ts => some (.skip, ts)                                                      -- :88
  | k+1, (.kw .if_, n) :: ts => do                                                               -- :175-183, 208-215
    let (c, ts) ← exprL k 0 ts
    match ts with
    | (.colon, _) :: ts => do
      let (t, ts) ← suite k ts
      let (e, ts) ← elifs k ts
      some (.seq (.line n) (.ifs c t e), ts)
    | _ => none
  | k+1, (.kw .while_, n) :: ts => do                                                            -- :216-237
    let (c, ts) ← exprL k 0 ts
    match ts with
    | (.colon, _) :: ts => do
      let (t, ts) ← suite k ts
      let (e, ts) ← whileElse k ts
      some (.seq (.line n) (.whil c t e), ts)
    | _ => none
  | k+1, (.kw .for_, n) :: (.name x, _) :: (.kw .in_, _) :: (.kw .range, _) :: (.op, _) :: ts => do  -- :241-271
    let (es, ns, ts) ← optActualsL k ts
    match ts with
    | (.cp, _) :: (.colon, _) :: ts =>
      if es.length + 256 * ns.length ≥ 256 then none else do
        let (t, ts) ← suite k ts
        let (e, ts) ← whileElse k ts
        some (.seq (.line n) (.forRange x es t e), ts)
    | _ => none
  | k+1, (.kw .for_, n) :: (.name x, _) :: (.kw .in_, _) :: ts => do                             -- :241-257, 272-277
    let (c, ts) ← exprL k 0 ts
    match ts with
    | (.colon, _) :: ts => do
      let (t, ts) ← suite k ts
      let (e, ts) ← whileElse k ts
      some (.seq (.line n) (.forIn x c t e), ts)
    | _ => none
  | _+1, (.kw .for_, _) :: _ => none
  | k+1, ts => simple k ts                                                                       -- :85

/-- `elif-stats`, snek-gram.ll:184-207. -/
def elifs : Nat → List LT → Option (Else × List LT)
  | 0, _ => none
  | k+1, (.kw .elif, n) :: ts => do
    let (c, ts) ← exprL k 0 ts
    match ts with
    | (.colon, _) :: ts => do
      let (t, ts) ← suite k ts
      let (e, ts) ← elifs k ts
      some (.elif n c t e, ts)
    | _ => none
  | k+1, (.kw .else_, _) :: (.colon, _) :: ts => do let (s, ts) ← suite k ts; some (.els s, ts)
  | _+1, (.kw .else_, _) :: _ => none
  | _+1, ts => some (.none, ts)

/-- `while-else-stat`, snek-gram.ll:238-240. -/
def whileElse : Nat → List LT → Option (Stmt × List LT)
  | 0, _ => none
  | k+1, (.kw .else_, _) :: (.colon, _) :: ts => suite k ts
  | _+1, (.kw .else_, _) :: _ => none
  | _+1, ts => some (.skip, ts)

/-- `suite`, snek-gram.ll:279-294. -/
def suite : Nat → List LT → Option (Stmt × List LT)
  | 0, _ => none
  | k+1, (.nl, _) :: (.indent old, _) :: ts => do
    let (s, ts) ← stats k ts
    match ts with
    | (.exdent new, _) :: ts => if new > old then none else some (s, ts)
    | _ => none
  | _+1, (.nl, _) :: _ => none
  | k+1, ts => simple k ts

/-- `stat opt-stats`, snek-gram.ll:82-84, 284. -/
def stats : Nat → List LT → Option (Stmt × List LT)
  | 0, _ => none
  | k+1, ts => do
    let (s, ts) ← stat k ts
    if startsStat ts then do let (r, ts) ← stats k ts; some (.seq s r, ts) else some (s, ts)
end

/-- What a command is. -/
inductive Cmd
  | stat (s : Stmt)
  | fn (x : Nat) (formals : List Nat) (f : FunDef)
  | imp

/-- `formals`, snek-gram.ll:57-81; `nm`: a formal with a default was seen. -/
def formals : Nat → Bool → List LT → Option (List Nat × Named × List LT)
  | 0, _, _ => none
  | k+1, nm, (.name x, _) :: (.assign _, _) :: ts => do
    let (e, ts) ← exprL k 0 ts
    match ts with
    | (.comma, _) :: ts => do let (xs, ns, ts) ← formals k true ts; some (x :: xs, .cons x e ns, ts)
    | ts => some ([x], .cons x e .nil, ts)
  | k+1, nm, (.name x, _) :: ts =>
    if nm then none else
    match ts with
    | (.comma, _) :: ts => do let (xs, ns, ts) ← formals k false ts; some (x :: xs, ns, ts)
    | ts => some ([x], .nil, ts)
  | _+1, _, _ => none

/-- `opt-formals`, snek-gram.ll:57-59. -/
def optFormals (k : Nat) : List LT → Option (List Nat × Named × List LT)
  | (.name x, n) :: ts => formals k false ((.name x, n) :: ts)
  | ts => some ([], .nil, ts)

/-- `command`, snek-gram.ll:17-56. -/
def command (k : Nat) : List LT → Option (Cmd × List LT)
  | (.kw .def_, _) :: (.name x, _) :: (.op, _) :: ts => do                                       -- :31-53
    let (xs, ns, ts) ← optFormals k ts
    match ts with
    | (.cp, _) :: (.colon, _) :: ts => do let (s, ts) ← suite k ts; some (.fn x xs ⟨ns, s⟩, ts)
    | _ => none
  | (.kw .import_, _) :: (.name _, _) :: ts => some (.imp, ts)                                    -- :54
  | (.kw .from_, _) :: (.name _, _) :: (.kw .import_, _) :: (t, _) :: ts =>                       -- :55 (any MULOP)
    if (binTok 9 t).isSome then some (.imp, ts) else none
  | (.kw .def_, _) :: _ | (.kw .import_, _) :: _ | (.kw .from_, _) :: _ => none
  | ts => do let (s, ts) ← stat k ts; some (.stat s, ts)                                          -- :17

/-- `start`, snek-gram.ll:14-16. -/
def start : Nat → List LT → Option (List Cmd)
  | 0, _ => none
  | _+1, [(.eof, _)] => some []
  | k+1, ts => do let (c, ts) ← command k ts; let cs ← start k ts; some (c :: cs)

end Snek.Parse
