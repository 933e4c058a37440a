import Verif.Model.Bytecode
import Verif.Model.Val
/-!
# The virtual machine

Models `snek_exec` (snek-exec.c:717-1045), `snek_assign` (585-668), `snek_range_start` / `snek_range_step` / `snek_in_step`
(103-241), `snek_call_builtin`'s place in the call instruction and the value stack (snek-exec.c:26-76).

The operations on values and containers are a parameter (`Prim`): each is a function of the operand values and of the rest of
the interpreter's state `σ` (heap, devices, output), with an error flag. The theorems about the machine hold for every such
parameter. The values themselves are those of `Model/Val`, with references as object numbers (the words and their tags are C01 and C02;
that collections during an operation do not disturb them is C14). A program runs with the functions defined before it was started (a `def` is a command of its own,
snek-gram.ll:31-53), so the function objects are a fixed table.
-/
namespace Snek.Vm
open Store (Val)

/-- The operations the machine calls. `none` / `true`: an error was raised. -/
structure Prim (σ : Type) where
  /-- `sizeof (snek_offset_t)`, snek.h:60-72 -/
  W : Nat
  /-- `SNEK_STACK`, snek.h:329-331 -/
  cap : Nat
  /-- `snek_poly_true`, snek-poly.c -/
  truth : σ → Val → Bool
  /-- `snek_binary` on `== != > < >= <= is in`, snek-exec.c:271-309, 373-407 -/
  rel : RelOp → Val → Val → σ → Option Val × σ
  /-- `snek_binary` on `[]`, snek-exec.c:318-328 -/
  index : Val → Val → σ → Option Val × σ
  /-- `snek_binary` on arithmetic operators, snek-exec.c:329-470: result (also when an error was raised), error, state -/
  arith : BinOp → Bool → Val → Val → σ → Val × Bool × σ
  /-- `-` and `~`, snek-exec.c:860-865 -/
  unary : UnOp → Val → σ → Option Val × σ
  /-- `snek_slice`, snek-exec.c:482-573: container, start, end, stride -/
  slice : Val → Option Val → Option Val → Option Val → σ → Option Val × σ
  /-- `snek_list_imm`, snek-list.c: elements in source order -/
  build : MkKind → List Val → σ → Option Val × σ
  /-- the element branch of `snek_assign`, snek-exec.c:614-667: container, index, value; the new accumulator -/
  storeIdx : AOp → Val → Val → Val → σ → Option Val × σ
  /-- `snek_op_del` on an element, snek-exec.c:930-939 -/
  delIdx : Val → Val → σ → Bool × σ
  /-- `SNEK_BUILTIN_MAX_BUILTIN` -/
  builtinMax : Nat
  /-- `snek_builtin_id_to_poly`, snek.h:951-957 -/
  builtinVal : Nat → Val
  /-- `snek_call_builtin`, snek-exec.c:673-710: builtin, positional, named values as on the stack -/
  callBuiltin : Val → List Val → List Val → σ → Option Val × σ
  /-- formals of the function object at an offset, snek.h:237-242 -/
  sig : Nat → FuncSig
  /-- its code -/
  code : Nat → List UInt8
  /-- ids found in memory after a new frame, see `funcBind` -/
  beyond : σ → Nat → Nat
  /-- would the allocations of a new local / global variable succeed now; the state afterwards -/
  varAlloc : σ → Bool × Bool × σ
  /-- would the allocation of a call frame succeed now -/
  frameAlloc : σ → Bool × σ
  /-- the element for iteration number `i`, `NULL` at the end (snek-exec.c:211-231) -/
  iter : Val → Int → σ → Option Val × σ
  /-- layout of variables in memory, see `variableDelete` -/
  varBytes : VarBytes Val

variable {σ γ : Type}

/-! ## Variables -/

/-- `snek_id_ref(id, false)` followed by reading the variable. -/
def loadId (fr : Frames Val γ) (x : Nat) : Option Val :=
  match frameLookup fr x false false false with
  | (some l, fr) => some (fr.get l)
  | (none, _) => none

/-- `snek_op_id`, snek-exec.c:838-856: a variable, else a builtin, else an error. -/
def loadName (P : Prim σ) (fr : Frames Val γ) (x : Nat) : Option Val :=
  match loadId fr x with
  | some v => some v
  | none => if x < P.builtinMax then some (P.builtinVal x) else none

/-- A local variable `x` is created by a store (`snek_variable_insert` on the current frame). -/
def makesLocal (fr : Frames Val γ) (x : Nat) : Bool := !fr.frames.isEmpty && !isLocalId fr x

/-- `snek_id_store`, with the allocations answered by the state. `false`: an error was raised (`snek_alloc` raises one when it
fails, also when the store then falls through to the global variable). -/
def storeId (P : Prim σ) (fr : Frames Val γ) (w : σ) (x : Nat) (v : Val) : Bool × Frames Val γ × σ :=
  let a := P.varAlloc w
  let r := idStore fr x v a.1 a.2.1
  (r.1 && (a.1 || !makesLocal fr x), r.2, a.2.2)

/-- Plain assignment to a name in `snek_assign`, snek-exec.c:585-612: the accumulator keeps the value. -/
def plainStore (P : Prim σ) (fr : Frames Val γ) (x : Nat) (v : Val) (w : σ) : Option Val × Frames Val γ × σ :=
  (if (storeId P fr w x v).1 then some v else none, (storeId P fr w x v).2)

/-- The name branch of `snek_assign`, snek-exec.c:585-668. The result is the new accumulator; `none`: an error was raised.
In the augmented case the loop stores the result of `snek_binary` even if that raised an error. -/
def assignId (P : Prim σ) (a : AOp) (x : Nat) (v : Val) (fr : Frames Val γ) (w : σ) :
    Option Val × Frames Val γ × σ :=
  match a with
  | .plain => plainStore P fr x v w
  | .named => if isLocalId fr x then (some v, fr, w) else plainStore P fr x v w
  | .aug op =>
    if makesLocal fr x then (none, fr, w)
    else match loadId fr x with
      | none => (none, fr, w)
      | some old =>
        let r := P.arith op true old v w
        let t := plainStore P fr x r.1 r.2.2
        (if r.2.1 then none else t.1, t.2)

/-! ## Loops -/

/-- `snek_poly_get_float`, snek-poly.c:148-155: value and error. -/
def getFloat : Val → BitVec 32 × Bool
  | .num u => (u, false)
  | _ => (0, true)

/-- IEEE `a <= b`. -/
def fleF (a b : BitVec 32) : Bool := !isNanF a && !isNanF b && decide (fkey a ≤ fkey b)

/-- `snek_range_start`, snek-exec.c:103-154; `args`: the actuals in source order. `false`: an error was raised. -/
def rangeStart (P : Prim σ) (x : Nat) (depth : UInt8) (args : List Val) (fr : Frames Val γ) (w : σ) :
    Bool × Frames Val γ × σ :=
  let go (current limit step : BitVec 32) (err : Bool) : Bool × Frames Val γ × σ :=
    let (ok1, fr, w) := storeId P fr w x (Val.ofF (fsub current step))
    let (ok2, fr, w) := storeId P fr w (forTmp P.W depth 0) (Val.ofF limit)
    let (ok3, fr, w) := storeId P fr w (forTmp P.W depth 1) (Val.ofF step)
    (!err && ok1 && ok2 && ok3, fr, w)
  match args with
  | [a] => let (l, e) := getFloat a; go 0 l (intToF 1) e
  | [a, b] => let (c, e1) := getFloat a; let (l, e2) := getFloat b; go c l (intToF 1) (e1 || e2)
  | [a, b, s] =>
    let (c, e1) := getFloat a
    let (l, e2) := getFloat b
    let (t, e3) := getFloat s
    if feq t 0 then (false, fr, w) else go c l t (e1 || e2 || e3)
  | _ => (false, fr, w)

/-- Outcome of the step instructions of a loop. -/
inductive LoopR | go | stop | error
  deriving DecidableEq, Repr

/-- `snek_range_step`, snek-exec.c:159-190. -/
def rangeStep (P : Prim σ) (x : Nat) (depth : UInt8) (fr : Frames Val γ) : LoopR × Frames Val γ :=
  match (frameLookup fr x false false false).1, (frameLookup fr (forTmp P.W depth 0) false false false).1,
      (frameLookup fr (forTmp P.W depth 1) false false false).1 with
  | some lx, some ll, some ls =>
    let (step, e1) := getFloat (fr.get ls)
    let (cur, e2) := getFloat (fr.get lx)
    let value := fadd cur step
    let fr := fr.set lx (Val.ofF value)
    let (limit, e3) := getFloat (fr.get ll)
    if e1 || e2 || e3 then (.error, fr)
    else if (if fltF 0 step then fleF limit value else fleF value limit) then (.stop, fr) else (.go, fr)
  | _, _, _ => (.stop, fr)

/-- `(snek_soffset_t)` of a float; undefined conversions give an arbitrary value (0). -/
def toSoff (W : Nat) (u : BitVec 32) : Int := (fToInt (8 * W) u).getD 0

/-- `snek_in_step`, snek-exec.c:195-240. The temporaries exist (they were just assigned); otherwise C dereferences NULL,
modelled as an error. -/
def inStep (P : Prim σ) (x : Nat) (depth : UInt8) (fr : Frames Val γ) (w : σ) : LoopR × Frames Val γ × σ :=
  match (frameLookup fr (forTmp P.W depth 1) false false false).1,
      (frameLookup fr (forTmp P.W depth 0) false false false).1 with
  | some li, some la =>
    let (u, e) := getFloat (fr.get li)
    let i := toSoff P.W u
    let fr := fr.set li (Val.ofF (intToF (i + 1)))
    let array := fr.get la
    match P.iter array i w with
    | (none, w) => (.error, fr, w)
    | (some v, w) =>
      if e then (.error, fr, w)
      else if Val.isNull v then (.stop, fr, w)
      else match storeId P fr w x v with
        | (true, fr, w) => (.go, fr, w)
        | (false, fr, w) => (.error, fr, w)
  | _, _ => (.error, fr, w)

/-! ## The machine -/

/-- The machine's registers: `snek_code`, `ip`, `snek_a`, the value stack (top first), frames, `snek_line`, and the rest.
`pend`: `snek_abort` was set by a push that found the stack full (seen after the next instruction). -/
structure Vm (σ : Type) where
  code : List UInt8
  ip : Nat
  acc : Val
  stack : List Val
  fr : Frames Val (List UInt8)
  line : Nat
  w : σ
  pend : Bool

/-- What is left when `snek_exec` returns: snek-exec.c:1035-1044 clears code, frames, stack and accumulator. -/
structure End (σ : Type) where
  globals : List (Var Val)
  w : σ
  line : Nat

/-- Result of one step. `fault`: the stack was read below its bottom. -/
inductive Out (σ : Type)
  | run (s : Vm σ)
  | done (v : Val) (e : End σ)
  | abort (e : End σ)
  | fault

/-- State after the clean-up. -/
def Vm.end (s : Vm σ) : End σ := ⟨s.fr.globals, s.w, s.line⟩

/-- `snek_stack_push`, snek-exec.c:29-37. -/
def Vm.pushAcc (P : Prim σ) (s : Vm σ) : Vm σ :=
  if s.stack.length = P.cap then { s with pend := true } else { s with stack := s.acc :: s.stack }

/-- Result of the switch: continue (and whether to push), an error was raised, or a stack underflow. -/
inductive ExR (σ : Type)
  | ok (s : Vm σ) (push : Bool)
  | error (s : Vm σ)
  | fault

/-- Accumulator result of an operation. -/
def Vm.res (s : Vm σ) (push : Bool) : Option Val × σ → ExR σ
  | (some v, w) => .ok { s with acc := v, w := w } push
  | (none, w) => .error { s with w := w }

/-- `snek_stack_pop` / `snek_stack_drop(1)` after `snek_stack_pick(0)`. -/
def Vm.pop (s : Vm σ) (k : Val → Vm σ → ExR σ) : ExR σ :=
  match s.stack with
  | [] => .fault
  | x :: l => k x { s with stack := l }

/-- Pop `n` values; they are passed in the order they were pushed. -/
def Vm.popN (s : Vm σ) (n : Nat) (k : List Val → Vm σ → ExR σ) : ExR σ :=
  if n ≤ s.stack.length then k (s.stack.take n).reverse { s with stack := s.stack.drop n } else .fault

/-- Pop an optional value. -/
def Vm.popIf (s : Vm σ) (b : Bool) (k : Option Val → Vm σ → ExR σ) : ExR σ :=
  if b then s.pop (fun x s => k (some x) s) else k none s

/-- Named actuals on the stack: the id as a number, then the value (snek-func.c:108-113). -/
def pairUp (W : Nat) : List Val → List (Nat × Val)
  | a :: v :: l => ((toSoff W (getFloat a).1).toNat, v) :: pairUp W l
  | _ => []

/-- `snek_op_call`, snek-exec.c:866-914; `ip0` is the offset of the instruction, `ip` (in `s`) the one after it. `uint8_t`
counts do not wrap (fewer than 256 actuals). -/
def callIns (P : Prim σ) (ip0 n : Nat) (push : Bool) (s : Vm σ) : ExR σ :=
  let npos := n % 256
  let nnamed := n / 256
  s.popN (npos + 2 * nnamed) fun args s =>
    s.pop fun fv s =>
      match fv.type with
      | .func =>
        match P.frameAlloc s.w with
        | (false, w) => .error { s with w := w }
        | (true, w) =>
          let k := fv.ref
          match funcBind (P.sig k) (P.beyond w) (args.take npos) (pairUp P.W (args.drop npos)) with
          | .ok vars =>
            .ok { s with acc := fv, w := w, code := P.code k, ip := 0,
                         fr := { s.fr with frames := ⟨vars, s.code, ip0⟩ :: s.fr.frames } } false
          | _ => .error { s with w := w }
      | .builtin => s.res push (P.callBuiltin fv (args.take npos) (args.drop npos) s.w)
      | _ => .error s

/-- The switch of `snek_exec`, snek-exec.c:745-1015, on a decoded instruction at `ip0`; `s.ip` is the offset after it. -/
def exec1 (P : Prim σ) (i : Ins) (push : Bool) (ip0 : Nat) (s : Vm σ) : ExR σ :=
  match i with
  | .chain c t =>
    s.pop fun x s =>
      match P.rel (.cmp c) x s.acc s.w with
      | (none, w) => .error { s with w := w }
      | (some r, w) =>
        if P.truth w r then .ok { s with w := w } push else .ok { s with acc := r, w := w, ip := t } false
  | .rel r => s.pop fun x s => s.res push (P.rel r x s.acc s.w)
  | .array => s.pop fun x s => s.res push (P.index x s.acc s.w)
  | .arith op => s.pop fun x s =>
      let (r, err, w) := P.arith op false x s.acc s.w
      s.res push (if err then none else some r, w)
  | .assign a x =>
    if x = 0 then
      s.pop fun ip s => s.pop fun lp s => s.res push (P.storeIdx a lp ip s.acc s.w)
    else
      let (r, fr, w) := assignId P a x s.acc s.fr s.w
      { s with fr := fr }.res push (r, w)
  | .num u => .ok { s with acc := .num u } push
  | .int b => .ok { s with acc := .num (intVal b) } push
  | .string o => .ok { s with acc := .str o } push
  | .mk k n => s.popN n fun l s => s.res push (P.build k l s.w)
  | .id x =>
    match loadName P s.fr x with
    | some v => .ok { s with acc := v } push
    | none => .error s
  | .unary .not => .ok { s with acc := .num (intToF (if P.truth s.w s.acc then 0 else 1)) } push
  | .unary u => s.res push (P.unary u s.acc s.w)
  | .call n => callIns P ip0 n push s
  | .slice f =>
    s.popIf (f.toNat / 4 % 2 = 1) fun stride s =>
      s.popIf (f.toNat / 2 % 2 = 1) fun stop s =>
        s.popIf (f.toNat % 2 = 1) fun start s =>
          s.pop fun v s => s.res push (P.slice v start stop stride s.w)
  | .global x =>
    let a := P.varAlloc s.w
    let s' := { s with fr := markGlobal s.fr x a.1, w := a.2.2 }
    if makesLocal s.fr x && !a.1 then .error s' else .ok s' push
  | .del x =>
    if x = 0 then
      s.pop fun lp s =>
        match P.delIdx lp s.acc s.w with
        | (true, w) => .ok { s with acc := Val.none, w := w } push
        | (false, w) => .error { s with w := w }
    else .ok { s with fr := (idDel P.varBytes s.fr x).2 } push
  | .ret => .ok { s with ip := s.code.length } push
  | .assert => if P.truth s.w s.acc then .ok { s with acc := Val.none } push else .error s
  | .branch t => .ok { s with ip := t } push
  | .branchTrue t => if P.truth s.w s.acc then .ok { s with ip := t } push else .ok s push
  | .branchFalse t => if P.truth s.w s.acc then .ok s push else .ok { s with ip := t } push
  | .forward _ => .error s
  | .rangeStart n d x =>
    s.popN n fun args s =>
      match rangeStart P x d args s.fr s.w with
      | (true, fr, w) => .ok { s with fr := fr, w := w } push
      | (false, fr, w) => .error { s with fr := fr, w := w }
  | .rangeStep t d x =>
    match rangeStep P x d s.fr with
    | (.go, fr) => .ok { s with fr := fr } push
    | (.stop, fr) => .ok { s with fr := fr, ip := t } push
    | (.error, fr) => .error { s with fr := fr }
  | .inStep t d x =>
    match inStep P x d s.fr s.w with
    | (.go, fr, w) => .ok { s with fr := fr, w := w } push
    | (.stop, fr, w) => .ok { s with fr := fr, w := w, ip := t } push
    | (.error, fr, w) => .error { s with fr := fr, w := w }
  | .line n => .ok { s with line := n } push
  | .null => .ok { s with acc := Val.none } push
  | .nop => .ok s push

/-- One round of the loops of `snek_exec`, snek-exec.c:727-1034: an instruction, or leaving a code block. -/
def step (P : Prim σ) (s : Vm σ) : Out σ :=
  if s.ip < s.code.length then
    let f := fetch P.W s.code s.ip
    match exec1 P f.1 f.2.1 s.ip { s with ip := f.2.2 } with
    | .fault => .fault
    | .error s' => .abort s'.end
    | .ok s' push => if s.pend then .abort s'.end else if push then .run (s'.pushAcc P) else .run s'
  else
    match framePop s.fr with
    | (none, _) => if s.pend then .abort s.end else .done s.acc s.end
    | (some (c, ip), fr) =>
      let s' := { s with code := c, ip := ip + P.W + 1, fr := fr }
      if 128 ≤ (c[ip]?.getD 0).toNat then .run (s'.pushAcc P) else .run s'

/-- `snek_exec(code)` at its start (snek-exec.c:719-726): no active call; the accumulator is NULL (cleared by the previous
run). -/
def start (code : List UInt8) (stack : List Val) (e : End σ) : Vm σ :=
  ⟨code, 0, Val.none, stack, ⟨e.globals, []⟩, e.line, e.w, false⟩

end Snek.Vm
