import Verif.Model.Ast
import Verif.Model.Vm
/-!
# Meaning of programs

A direct evaluator for the source language: no code, no accumulator, no program counter. Operations on values are those of
`Prim`, variables those of `Model/Frame` (C23). `n` bounds the recursion (`time` when it runs out): a statement about
"evaluates to" is about some `n`. `d` is how many operands are pending; the language only promises something while at most
`cap` operands are pending (`over` otherwise).
-/
namespace Snek.Lang
open Store (Val)
open Snek.Vm

/-- Program state: variables (globals and those of the running function, if any) and the rest of the world. -/
structure St (σ : Type) where
  fr : Frames Val Unit
  w : σ

/-- Result of evaluation: a value and the new state; an error was reported (the globals and the world then); too many pending
operands; `n` was too small (the globals and the world where the evaluation was cut off). -/
inductive R (σ α : Type)
  | ok (a : α) (s : St σ)
  | err (globals : List (Var Val)) (w : σ)
  | over
  | time (globals : List (Var Val)) (w : σ)

/-- Was the evaluation cut off because `n` was too small? -/
def R.cut {σ α : Type} : R σ α → Bool
  | .time _ _ => true
  | _ => false

/-- Sequencing. -/
def R.bind {σ α β : Type} (r : R σ α) (k : α → St σ → R σ β) : R σ β :=
  match r with
  | .ok a s => k a s
  | .err g w => .err g w
  | .over => .over
  | .time g w => .time g w

/-- One more operand pending. -/
def needRoom {σ α : Type} (P : Prim σ) (d : Nat) (r : R σ α) : R σ α := if d < P.cap then r else .over

/-- Report an error. -/
def St.fail {σ α : Type} (s : St σ) : R σ α := .err s.fr.globals s.w

/-- Result of an operation on values. -/
def St.prim {σ : Type} (s : St σ) : Option Val × σ → R σ Val
  | (some v, w) => .ok v { s with w := w }
  | (none, w) => .err s.fr.globals w

/-- How a statement ends. -/
inductive Flow
  | normal
  | brk
  | cont
  | ret (v : Val)
  deriving DecidableEq

/-- Named actuals as a builtin function sees them. -/
def flatten : List (Nat × Val) → List Val
  | [] => []
  | (x, v) :: l => .num (intToF x) :: v :: flatten l

variable {σ : Type}

/-- Name assignment. -/
def St.assign (P : Prim σ) (s : St σ) (op : AOp) (x : Nat) (v : Val) : R σ Val :=
  match assignId P op x v s.fr s.w with
  | (some r, fr, w) => .ok r ⟨fr, w⟩
  | (none, fr, w) => .err fr.globals w

mutual
/-- Value of an expression: operands left to right, each once. -/
def evalE (P : Prim σ) (defs : Nat → FunDef) : (n : Nat) → (d : Nat) → Expr → St σ → R σ Val
  | 0, _, _, s => .time s.fr.globals s.w
  | n + 1, d, e, s =>
    match e with
    | .num u => .ok (.num u) s
    | .str o => .ok (.str o) s
    | .name x =>
      match loadName P s.fr x with
      | some v => .ok v s
      | none => s.fail
    | .unary .not e => (evalE P defs n d e s).bind fun v s => .ok (.num (intToF (if P.truth s.w v then 0 else 1))) s
    | .unary op e => (evalE P defs n d e s).bind fun v s => s.prim (P.unary op v s.w)
    | .binary op a b =>
      (evalE P defs n d a s).bind fun x s => needRoom P d <|
        (evalE P defs n (d + 1) b s).bind fun y s =>
          s.prim (if (P.arith op false x y s.w).2.1 then none else some (P.arith op false x y s.w).1,
            (P.arith op false x y s.w).2.2)
    | .and a b => (evalE P defs n d a s).bind fun x s => if P.truth s.w x then evalE P defs n d b s else .ok x s
    | .or a b => (evalE P defs n d a s).bind fun x s => if P.truth s.w x then .ok x s else evalE P defs n d b s
    | .cmp a r b more => (evalE P defs n d a s).bind fun x s => evalChain P defs n d x r b more s
    | .index a i =>
      (evalE P defs n d a s).bind fun x s => needRoom P d <|
        (evalE P defs n (d + 1) i s).bind fun y s => s.prim (P.index x y s.w)
    | .slice a b c t =>
      (evalE P defs n d a s).bind fun x s => needRoom P d <|
        (evalOpt P defs n (d + 1) b s).bind fun b s =>
          (evalOpt P defs n (d + 1 + b.isSome.toNat) c s).bind fun c s =>
            (evalOpt P defs n (d + 1 + b.isSome.toNat + c.isSome.toNat) t s).bind fun t s =>
              s.prim (P.slice x b c t s.w)
    | .call f args named =>
      (evalE P defs n d f s).bind fun fv s => needRoom P d <|
        (evalArgs P defs n (d + 1) args s).bind fun pos s =>
          (evalNamed P defs n (d + 1 + args.length) named s).bind fun nm s => callV P defs n d fv pos nm s
    | .build k es => (evalArgs P defs n d es s).bind fun l s => s.prim (P.build k l s.w)

/-- A comparison whose left operand is `x`: false as soon as one link is. -/
def evalChain (P : Prim σ) (defs : Nat → FunDef) : (n : Nat) → (d : Nat) → Val → RelOp → Expr → Chain → St σ → R σ Val
  | 0, _, _, _, _, _, s => .time s.fr.globals s.w
  | n + 1, d, x, r, b, more, s =>
    needRoom P d <| (evalE P defs n (d + 1) b s).bind fun y s =>
      (s.prim (P.rel r x y s.w)).bind fun v s =>
        match more with
        | .nil => .ok v s
        | .cons r' c more => if P.truth s.w v then evalChain P defs n d y r' c more s else .ok v s

/-- An optional operand. -/
def evalOpt (P : Prim σ) (defs : Nat → FunDef) : (n : Nat) → (d : Nat) → OptE → St σ → R σ (Option Val)
  | 0, _, _, s => .time s.fr.globals s.w
  | _ + 1, _, .none, s => .ok none s
  | n + 1, d, .some e, s => (evalE P defs n d e s).bind fun v s => needRoom P d <| .ok (some v) s

/-- Operands left to right; each stays pending. -/
def evalArgs (P : Prim σ) (defs : Nat → FunDef) : (n : Nat) → (d : Nat) → Exprs → St σ → R σ (List Val)
  | 0, _, _, s => .time s.fr.globals s.w
  | _ + 1, _, .nil, s => .ok [] s
  | n + 1, d, .cons e es, s =>
    (evalE P defs n d e s).bind fun v s => needRoom P d <|
      (evalArgs P defs n (d + 1) es s).bind fun l s => .ok (v :: l) s

/-- Named actuals; the name and the value stay pending. -/
def evalNamed (P : Prim σ) (defs : Nat → FunDef) : (n : Nat) → (d : Nat) → Named → St σ → R σ (List (Nat × Val))
  | 0, _, _, s => .time s.fr.globals s.w
  | _ + 1, _, .nil, s => .ok [] s
  | n + 1, d, .cons x e rest, s =>
    needRoom P d <| (evalE P defs n (d + 1) e s).bind fun v s => needRoom P (d + 1) <|
      (evalNamed P defs n (d + 2) rest s).bind fun l s => .ok ((x, v) :: l) s

/-- Calling a value. The callee runs with its own variables; afterwards the caller's are as they were. -/
def callV (P : Prim σ) (defs : Nat → FunDef) :
    (n : Nat) → (d : Nat) → Val → List Val → List (Nat × Val) → St σ → R σ Val
  | 0, _, _, _, _, s => .time s.fr.globals s.w
  | n + 1, d, fv, pos, named, s =>
    match fv.type with
    | .builtin => s.prim (P.callBuiltin fv pos (flatten named) s.w)
    | .func =>
      match P.frameAlloc s.w with
      | (false, w) => .err s.fr.globals w
      | (true, w) =>
        match funcBind (P.sig fv.ref) (P.beyond w) pos named with
        | .ok vars =>
          let f := defs fv.ref
          let back (v : Val) (t : St σ) : R σ Val := .ok v ⟨⟨t.fr.globals, s.fr.frames⟩, t.w⟩
          (evalDefaults P defs n d f.defaults ⟨⟨s.fr.globals, [⟨vars, (), 0⟩]⟩, w⟩).bind fun _ t =>
            (execS P defs n d 0 f.body t).bind fun fl t =>
              match fl with
              | .ret v => back v t
              | .normal => back Val.none t
              | .brk | .cont => t.fail
        | _ => .err s.fr.globals w
    | _ => s.fail

/-- Parameter defaults: evaluated in order in the callee, assigned to the parameters that were not passed. -/
def evalDefaults (P : Prim σ) (defs : Nat → FunDef) : (n : Nat) → (d : Nat) → Named → St σ → R σ Unit
  | 0, _, _, s => .time s.fr.globals s.w
  | _ + 1, _, .nil, s => .ok () s
  | n + 1, d, .cons x e rest, s =>
    (evalE P defs n d e s).bind fun v s => (s.assign P .named x v).bind fun _ s => evalDefaults P defs n d rest s

/-- Executing a statement; `fd`: number of enclosing `for` loops. -/
def execS (P : Prim σ) (defs : Nat → FunDef) : (n : Nat) → (d : Nat) → (fd : Nat) → Stmt → St σ → R σ Flow
  | 0, _, _, _, s => .time s.fr.globals s.w
  | n + 1, d, fd, c, s =>
    match c with
    | .skip | .line _ => .ok .normal s
    | .seq a b => (execS P defs n d fd a s).bind fun f s =>
        match f with
        | .normal => execS P defs n d fd b s
        | f => .ok f s
    | .expr e => (evalE P defs n d e s).bind fun _ s => .ok .normal s
    | .assign op x e => (evalE P defs n d e s).bind fun v s => (s.assign P op x v).bind fun _ s => .ok .normal s
    | .assignIdx op a i e =>
      (evalE P defs n d a s).bind fun x s => needRoom P d <|
        (evalE P defs n (d + 1) i s).bind fun y s => needRoom P (d + 1) <|
          (evalE P defs n (d + 2) e s).bind fun v s =>
            (s.prim (P.storeIdx op x y v s.w)).bind fun _ s => .ok .normal s
    | .ret .none => .ok (.ret Val.none) s
    | .ret (.some e) => (evalE P defs n d e s).bind fun v s => .ok (.ret v) s
    | .brk => .ok .brk s
    | .cont => .ok .cont s
    | .global x =>
      let a := P.varAlloc s.w
      let fr := markGlobal s.fr x a.1
      if makesLocal s.fr x && !a.1 then .err fr.globals a.2.2 else .ok .normal ⟨fr, a.2.2⟩
    | .del x => .ok .normal ⟨(idDel P.varBytes s.fr x).2, s.w⟩
    | .delIdx a i =>
      (evalE P defs n d a s).bind fun x s => needRoom P d <|
        (evalE P defs n (d + 1) i s).bind fun y s =>
          match P.delIdx x y s.w with
          | (true, w) => .ok .normal { s with w := w }
          | (false, w) => .err s.fr.globals w
    | .assert e => (evalE P defs n d e s).bind fun v s => if P.truth s.w v then .ok .normal s else s.fail
    | .ifs c t els => (evalE P defs n d c s).bind fun v s =>
        if P.truth s.w v then execS P defs n d fd t s else execElse P defs n d fd els s
    | .whil c body els => execWhile P defs n d fd c body els s
    | .forRange x args body els =>
      (evalArgs P defs n d args s).bind fun l s =>
        match rangeStart P x (UInt8.ofNat fd) l s.fr s.w with
        | (true, fr, w) => execRange P defs n d fd x body els ⟨fr, w⟩
        | (false, fr, w) => .err fr.globals w
    | .forIn x e body els =>
      (evalE P defs n d e s).bind fun v s =>
        (s.assign P .plain (forTmp P.W (UInt8.ofNat fd) 0) v).bind fun _ s =>
          (s.assign P .plain (forTmp P.W (UInt8.ofNat fd) 1) Val.zero).bind fun _ s =>
            execIn P defs n d fd x body els s

/-- `elif` and `else`. -/
def execElse (P : Prim σ) (defs : Nat → FunDef) : (n : Nat) → (d : Nat) → (fd : Nat) → Else → St σ → R σ Flow
  | 0, _, _, _, s => .time s.fr.globals s.w
  | _ + 1, _, _, .none, s => .ok .normal s
  | n + 1, d, fd, .els t, s => execS P defs n d fd t s
  | n + 1, d, fd, .elif _ c t rest, s => (evalE P defs n d c s).bind fun v s =>
      if P.truth s.w v then execS P defs n d fd t s else execElse P defs n d fd rest s

/-- `while`: `else` runs when the condition is false, not after `break`. -/
def execWhile (P : Prim σ) (defs : Nat → FunDef) :
    (n : Nat) → (d : Nat) → (fd : Nat) → Expr → Stmt → Stmt → St σ → R σ Flow
  | 0, _, _, _, _, _, s => .time s.fr.globals s.w
  | n + 1, d, fd, c, body, els, s => (evalE P defs n d c s).bind fun v s =>
      if P.truth s.w v then
        (execS P defs n d fd body s).bind fun f s =>
          match f with
          | .normal | .cont => execWhile P defs n d fd c body els s
          | .brk => .ok .normal s
          | .ret v => .ok (.ret v) s
      else execS P defs n d fd els s

/-- `for x in range(...)` after its start. -/
def execRange (P : Prim σ) (defs : Nat → FunDef) :
    (n : Nat) → (d : Nat) → (fd : Nat) → Nat → Stmt → Stmt → St σ → R σ Flow
  | 0, _, _, _, _, _, s => .time s.fr.globals s.w
  | n + 1, d, fd, x, body, els, s =>
    match rangeStep P x (UInt8.ofNat fd) s.fr with
    | (.error, fr) => .err fr.globals s.w
    | (.stop, fr) => execS P defs n d fd els { s with fr := fr }
    | (.go, fr) => (execS P defs n d (fd + 1) body { s with fr := fr }).bind fun f s =>
        match f with
        | .normal | .cont => execRange P defs n d fd x body els s
        | .brk => .ok .normal s
        | .ret v => .ok (.ret v) s

/-- `for x in e` after the evaluation of `e`. -/
def execIn (P : Prim σ) (defs : Nat → FunDef) :
    (n : Nat) → (d : Nat) → (fd : Nat) → Nat → Stmt → Stmt → St σ → R σ Flow
  | 0, _, _, _, _, _, s => .time s.fr.globals s.w
  | n + 1, d, fd, x, body, els, s =>
    match inStep P x (UInt8.ofNat fd) s.fr s.w with
    | (.error, fr, w) => .err fr.globals w
    | (.stop, fr, w) => execS P defs n d fd els ⟨fr, w⟩
    | (.go, fr, w) => (execS P defs n d (fd + 1) body ⟨fr, w⟩).bind fun f s =>
        match f with
        | .normal | .cont => execIn P defs n d fd x body els s
        | .brk => .ok .normal s
        | .ret v => .ok (.ret v) s
end

end Snek.Lang
