import Verif.Model.Pda
/-!
# Compiling while memory runs out

The parser of Model/Pda with the compile buffer as it is on the machine: a block of `compile_alloc` bytes that is replaced by one 32 bytes
longer when it is full (`compile_extend`, snek-code.c:98-112). When there is no memory for the longer block, `snek_alloc` reports it and
sets `snek_abort` (snek-memory.c:714-726, snek-error.c:45-47), `compile_extend` returns without storing its bytes, and whoever called it
goes on. The flag is looked at when the next token is read (snek-parse.c:156-157), after the execution of a command (snek-gram.ll:23-24),
and by the virtual machine after every instruction (snek-exec.c:1005-1006).

`g` says which requests for memory are granted, in their order: any sequence of answers is possible. `junk` is what is found where nothing has
been written, within the block or outside.

Simplifications: those of Model/Pda; until a request is refused every access is taken as there; memory can be refused to the compiler only (when
the lexer is refused a name or a string the flag is looked at at once); the block is not moved by a collection (see C14, C33).
-/
namespace Snek.Scarce
open Snek.Vm Snek.Lang Snek.Lex Snek.Parse Snek.Pda

/-- The state of the parser, `compile_alloc` (snek-code.c:31), `snek_abort` (snek-error.c:17), and for the record: the number of requests for
memory, whether a byte was written outside of the block, whether a value was lost because the value stack was full. `s.buf.bytes` are the
first `snek_compile_size` bytes of the block. -/
structure MSt where
  s : PSt
  alloc : Nat
  fail : Bool
  asks : Nat
  stray : Bool
  lost : Bool
  deriving DecidableEq, Repr

/-- Result of an action. -/
inductive MRes
  | ok (m : MSt) | syntax | fault
  deriving DecidableEq, Repr

variable (z : Sizes) (conv : BitVec 32 → BitVec 8) (g : Nat → Bool) (junk : MSt → Nat → UInt8)

/-- `_value_push`, snek-parse.c:89-100. -/
def MSt.push (v : Nat) (m : MSt) : MSt := { m with s := m.s.push z v, lost := m.lost || decide (m.s.vals.length ≥ z.V) }

/-- `_value_pop`, snek-parse.c:73-87. -/
def MSt.pop (m : MSt) (k : Nat → MSt → MRes) : MRes :=
  match m.s.vals with
  | [] => .fault
  | v :: vs => k v { m with s := { m.s with vals := vs } }

/-- A change of the code. -/
def MSt.code (f : Buf → Buf) (m : MSt) : MSt := { m with s := m.s.code f }

/-- A call of `snek_alloc` that is refused, snek-memory.c:720-726. -/
def MSt.refused (m : MSt) : MSt := { m with asks := m.asks + 1, fail := true }

/-- `compile_extend`, snek-code.c:98-112 (COMPILE_INC is 32, :32). -/
def MSt.ext (l : List UInt8) (m : MSt) : MSt :=
  if m.s.buf.bytes.length + l.length > m.alloc then
    if g m.asks then { m.code (fun b => { b with bytes := b.bytes ++ l }) with asks := m.asks + 1, alloc := m.alloc + 32 }
    else m.refused
  else m.code fun b => { b with bytes := b.bytes ++ l }

/-- `snek_code_add_op`, snek-code.c:130-136. -/
def MSt.op (o : Nat) (m : MSt) : MSt := (m.code fun b => ⟨b.bytes, b.bytes.length, b.prev⟩).ext g [UInt8.ofNat o]

/-- `snek_code_add_op` and one `compile_extend` per operand, snek-code.c:142-232. -/
def MSt.emit (o : Nat) (args : List (List UInt8)) (m : MSt) : MSt := args.foldl (fun m l => m.ext g l) (m.op g o)

/-- `snek_compile[off]`. -/
def MSt.byte (off : Nat) (m : MSt) : UInt8 :=
  match m.s.buf.bytes[off]? with
  | some b => b
  | none => if m.fail then junk m off else 0

/-- `memcpy` of an offset from `&snek_compile[off]`. -/
def MSt.word (off : Nat) (m : MSt) : Nat :=
  if m.fail then leNat ((List.range z.W).map fun i => m.byte junk (off + i)) else rd m.s.buf.bytes z.W off

/-- `memcpy` to `&snek_compile[off]`, bytes behind the code are not kept. -/
def MSt.poke (off : Nat) (l : List UInt8) (m : MSt) : MSt :=
  if m.fail then
    { m.code (fun b => { b with bytes := (List.range l.length).foldl (fun c i => c.set (off + i) (l[i]?.getD 0)) b.bytes }) with
      stray := m.stray || decide (off + l.length > m.alloc) }
  else m.code fun b => { b with bytes := overwrite b.bytes off l }

/-- `snek_code_set_push`, snek.h:1087-1091. -/
def MSt.setPush (off : Nat) (m : MSt) : MSt :=
  { m.code (Buf.setPush off) with stray := m.stray || (m.fail && decide (off ≥ m.alloc)) }

/-- `snek_code_set_push(snek_code_prev_insn())`. -/
def MSt.pushPrev (m : MSt) : MSt := m.setPush m.s.buf.prev

/-- `snek_code_patch_branch`, snek.h:482-486. -/
def MSt.patchBranch (branch target : Nat) (m : MSt) : MSt := m.poke (branch + 1) (leBytes z.W target)

/-- `snek_code_patch_forward`, snek-code.c:243-267, after memory was refused. -/
def MSt.patchOut (ip stop kind target : Nat) (m : MSt) : MSt :=
  if ip < stop then
    let b := (m.byte junk ip).toNat
    let op := b % 128
    let f := m.word z junk (ip + 1)
    let m' := if op = 61 ∧ f % 256 = kind then
        (m.poke ip [UInt8.ofNat (f / 256) ||| UInt8.ofNat (b / 128 * 128)]).poke (ip + 1) (leBytes z.W target)
      else m
    MSt.patchOut (ip + 1 + operandSize z.W op) stop kind target m'
  else m
termination_by stop - ip
decreasing_by omega

/-- `snek_code_patch_forward`, snek-code.c:243-267. -/
def MSt.patchFwd (start stop kind target : Nat) (m : MSt) : MSt :=
  if m.fail then m.patchOut z junk start stop kind target else m.code (Buf.patchFwd z.W start stop kind target)

/-- `snek_code_delete_prev`, snek-code.c:120-125. -/
def MSt.deletePrev (m : MSt) : MSt := m.code Buf.deletePrev

/-- `snek_code_add_number`, snek-code.c:165-175. -/
def MSt.number (u : BitVec 32) (m : MSt) : MSt := m.emit g (numIns conv u).opcode [(numIns conv u).operands z.W]

/-- `snek_code_add_string`, snek-code.c:180-189. -/
def MSt.string (o : Nat) (m : MSt) : MSt :=
  let m := m.emit g 45 [leBytes z.W 0]
  m.poke (m.s.buf.prev + 1) (leBytes z.W o)

/-- `snek_code_add_forward_op`, snek.h:444-450. -/
def MSt.forward (kind op : Nat) (m : MSt) : MSt := m.emit g 61 [leBytes z.W (kind + op * 256)]

/-- `snek_code_reset`, snek-code.c:274-280. -/
def MSt.reset (m : MSt) : MSt := { m with s := { m.s with buf := Buf.empty }, alloc := 0 }

/-- `extract_lvalue`, snek-gram.ll:128-156. -/
def lvalueM (op : Nat) (m : MSt) : MRes :=
  let c := (m.byte junk m.s.buf.prev).toNat
  if c = 49 then .ok (((m.push z (m.word z junk (m.s.buf.prev + 1))).push z op).deletePrev)
  else if c = 16 then .ok ((((if op ≠ 56 then m.setPush m.s.buf.prevPrev else m).push z 0).push z op).deletePrev)
  else .syntax

/-- The actions, in the order of Model/Pda and with the same lines of snek-gram.ll. -/
def actM : Act → MSt → MRes
  | .finish, m =>                                                                                    -- :18-22, snek-code.c:285-302
    if m.s.buf.bytes = [] then .ok { m with s := { m.s with out := m.s.out ++ [.stat []], buf := Buf.empty } }
    else if g m.asks then .ok { m.reset with s := { m.reset.s with out := m.s.out ++ [.stat m.s.buf.bytes] }, asks := m.asks + 1 }
    else .ok m.refused.reset
  | .defName, m => .ok (MSt.push z (tokId m.s.tv) { m with s := { m.s with formals := [], nnamed := 0 } })
  | .defEnd, m =>                                                                                    -- :38-53
    let m := if (m.byte junk m.s.buf.prev).toNat = 65 then m.deletePrev else m.emit g 67 []
    if m.fail ∧ m.s.buf.bytes = [] then .ok m.reset
    else if g m.asks then
      if g (m.asks + 1) then
        m.pop fun id m' => .ok { m'.reset with
          s := { m'.reset.s with out := m.s.out ++ [.fn id m.s.formals m.s.nnamed m.s.buf.bytes] }, asks := m.asks + 2 }
      else .ok { m.refused.reset with asks := m.asks + 2 }                                           -- :44-46
    else .ok m.refused.reset                                                                         -- :42-43
  | .formal, m => if m.s.formals.length ≥ z.F then .fault else .ok { m with s := { m.s with formals := m.s.formals ++ [tokId m.s.tv] } }
  | .named, m => .ok (MSt.emit g 42 [leBytes z.W (m.s.formals.getLastD 0)] { m with s := { m.s with nnamed := m.s.nnamed + 1 } })
  | .notNamed, m => if m.s.nnamed ≠ 0 then .syntax else .ok m
  | .addLine, m => .ok (m.emit g 66 [leBytes z.W m.s.line])
  | .ret, m => .ok (m.emit g 65 [])
  | .null, m => .ok (m.emit g 67 [])
  | .brk, m => .ok (m.forward z g fwBreak 58)
  | .cont, m => .ok (m.forward z g fwContinue 58)
  | .assert_, m => .ok (m.emit g 57 [])
  | .delLvalue, m => lvalueM z junk 56 m
  | .lvalue, m => lvalueM z junk (tokOp m.s.tv) m
  | .opLvalue, m => m.pop fun op m => m.pop fun id m => .ok (m.emit g op [leBytes z.W id])
  | .global, m => .ok (m.emit g 55 [leBytes z.W (tokId m.s.tv)])
  | .ifEnd, m => m.pop fun elifOff m => m.pop fun ifOff m =>
    let m := m.patchBranch z ifOff elifOff
    .ok (m.patchFwd z junk ifOff m.s.buf.cur fwIf m.s.buf.cur)
  | .elif, m =>
    let m := (m.emit g 66 [leBytes z.W m.s.line]).forward z g fwIf 58
    .ok (m.push z m.s.buf.cur)
  | .elseB, m =>
    let m := m.forward z g fwIf 58
    .ok (m.push z m.s.buf.cur)
  | .elifEnd, m => m.pop fun elifOff m => m.pop fun ifOff m => .ok (m.patchBranch z ifOff elifOff)
  | .pushCur, m => .ok (m.push z m.s.buf.cur)
  | .ifExpr, m =>
    let m := m.emit g 60 [leBytes z.W 0]
    .ok (m.push z m.s.buf.prev)
  | .whileTest, m =>
    let m := m.emit g 60 [leBytes z.W 0]
    .ok (m.push z m.s.buf.prev)
  | .loopEnd, m =>
    let m := m.emit g 58 [leBytes z.W 0]
    .ok ((m.push z m.s.buf.prev).push z m.s.buf.cur)
  | .patchLoop, m =>
    m.pop fun elseOff m => m.pop fun endOff m => m.pop fun whileOff m => m.pop fun topOff m =>
      let m := m.patchBranch z whileOff elseOff
      let m := m.patchBranch z endOff topOff
      let m := m.patchFwd z junk whileOff endOff fwContinue topOff
      .ok (m.patchFwd z junk whileOff endOff fwBreak m.s.buf.cur)
  | .forName, m => .ok (m.push z (tokId m.s.tv))
  | .forEnd, m => .ok { m with s := { m.s with fd := m.s.fd - 1 } }
  | .rangeEnd, m => m.pop fun num m =>
    if num ≥ 256 then .syntax else m.pop fun id m =>
      let args := fun n => [leBytes z.W n, [UInt8.ofNat m.s.fd], leBytes z.W id]
      let m := (m.emit g 62 (args num)).emit g 63 (args 0)
      let m := (m.push z m.s.buf.prev).push z m.s.buf.prev
      .ok { m with s := { m.s with fd := m.s.fd + 1 } }
  | .inEnd, m => m.pop fun id m =>
      let d := UInt8.ofNat m.s.fd
      let m := m.emit g 41 [leBytes z.W (forTmp z.W d 0)]
      let m := m.number z conv g 0
      let m := m.emit g 41 [leBytes z.W (forTmp z.W d 1)]
      let m := m.emit g 64 [leBytes z.W 0, [d], leBytes z.W id]
      let m := (m.push z m.s.buf.prev).push z m.s.buf.prev
      .ok { m with s := { m.s with fd := m.s.fd + 1 } }
  | .indent, m => .ok (m.push z (tokIndent m.s.tv))
  | .exdent, m => m.pop fun indent m => if tokIndent m.s.tv > indent then .syntax else .ok m
  | .boolBranch onTrue, m =>
    let m := m.emit g (if onTrue then 59 else 60) [leBytes z.W 0]
    .ok (m.push z m.s.buf.prev)
  | .shortSecond, m => m.pop fun off m => .ok ((m.patchBranch z off m.s.buf.cur).emit g 68 [])
  | .unopFirst, m => .ok (m.push z (tokOp m.s.tv))
  | .uminus, m => .ok (m.push z 51)
  | .unopSecond, m => m.pop fun op m => .ok (m.emit g op [])
  | .push0, m => .ok (m.push z 0)
  | .push1, m => .ok (m.push z 1)
  | .cmpEnd, m => m.pop fun off m =>
    .ok (if off ≠ 0 then (m.patchFwd z junk off m.s.buf.cur fwCmp m.s.buf.cur).emit g 68 [] else m)
  | .cmpLink, m =>
    match m.s.vals with
    | [] => .fault
    | cmpOff :: vs =>
      let m := if cmpOff ≠ 0 then m.deletePrev.forward z g fwCmp ((m.byte junk m.s.buf.prev).toNat + 6)
        else { m with s := { m.s with vals := m.s.buf.prev :: vs } }
      .ok (m.pushPrev.push z (tokOp m.s.tv))
  | .binopFirst, m => .ok (m.pushPrev.push z (tokOp m.s.tv))
  | .binopSecond, m => m.pop fun op m => .ok (m.emit g op [])
  | .setPush, m => .ok m.pushPrev
  | .index, m => m.pop fun sl m =>
    if sl ≠ 0 then
      m.pushPrev.pop fun stride m => m.pop fun stop m => m.pop fun start m =>
        .ok (m.emit g 54 [[UInt8.ofNat (start * 1 ||| stop * 2 ||| stride * 4)]])
    else .ok (m.emit g 16 [])
  | .call, m => m.pop fun num m => .ok (m.emit g 53 [leBytes z.W num])
  | .optExpr, m => .ok ((m.push z 1).pushPrev)
  | .tuple, m => m.pop fun num m => .ok (if num < 2 ^ (8 * z.W - 1) then m.emit g 47 [leBytes z.W num] else m)
  | .list, m => m.pop fun num m => if num ≥ 256 then .syntax else .ok (m.emit g 46 [leBytes z.W num])
  | .dict, m => m.pop fun num m => .ok (m.emit g 48 [leBytes z.W num])
  | .name, m => .ok (m.emit g 49 [leBytes z.W (tokId m.s.tv)])
  | .number, m => .ok (match m.s.tv with | .number u => m.number z conv g u | _ => m)
  | .string, m => .ok (match m.s.tv with | .string o => m.string z g o | _ => m)
  | .stringCat, m => .ok (match m.s.tv with | .string o => (m.pushPrev.string z g o).emit g 17 [] | _ => m)
  | .tupleP, m => m.pop fun num m => if num ≥ 256 then .syntax else .ok (m.push z (num + 1))
  | .notTuple, m => .ok (m.push z (2 ^ (8 * z.W) - 1))
  | .argName, m =>
    if (m.byte junk m.s.buf.prev).toNat ≠ 49 then .syntax
    else .ok ((m.deletePrev.number z conv g (intToF (m.word z junk (m.s.buf.prev + 1)))).pushPrev)
  | .argNamed, m => m.pop fun num m => .ok ((m.push z (num + 256)).pushPrev)
  | .argPos, m => m.pop fun num m => if num ≥ 256 then .syntax else .ok ((m.push z (num + 1)).pushPrev)
  | .entPart, m => m.pop fun num m => .ok ((m.push z (num + 1)).pushPrev)

/-- What the parser does next; `error` is `parse_return_error`. -/
inductive MOut
  | next (stk : List Sym) (m : MSt)
  | done (m : MSt) | syntax (m : MSt) | oom (m : MSt) | fault (m : MSt) | error (m : MSt)
  deriving DecidableEq, Repr

/-- One step, as in Model/Pda; with `snek_abort` no further token is used (snek-parse.c:156-157) and no further command is read
(snek-gram.ll:23-24). -/
def stepM (P : Nat) : List Sym → MSt → MOut
  | [], m => .done m
  | .a x :: stk, m =>
    match actM z conv g junk x m with
    | .ok m => if x = .finish ∧ m.fail = true then .error m else .next stk m
    | .syntax => .syntax m
    | .fault => .fault m
  | .t x :: stk, m =>
    if m.s.la then
      if x.is (hd m.s.ts).1 then .next stk { m with s := { m.s with ts := m.s.ts.tail, la := false } } else .syntax m
    else if m.fail then .error m else .next (.t x :: stk) { m with s := m.s.look }
  | .n x :: stk, m =>
    if m.s.la then
      match prod x (hd m.s.ts).1 with
      | some r => if (r ++ stk).length ≤ P then .next (r ++ stk) m else .oom m
      | none => .syntax m
    else if m.fail then .error m else .next (.n x :: stk) { m with s := m.s.look }

/-- The parser, for a number of steps; `none`: it has not stopped yet. -/
def runM (P : Nat) : Nat → List Sym → MSt → Option MOut
  | 0, _, _ => none
  | k+1, stk, m =>
    match stepM z conv g junk P stk m with
    | .next stk m => runM P k stk m
    | r => some r

/-- The state in which `snek_parse` calls the parser, snek-parse.c:221-241. -/
def MSt.init (ts : List LT) : MSt := ⟨PSt.init ts, 0, false, 0, false, false⟩

/-- `parse(NULL)` on the tokens of a file. -/
def parseM (P k : Nat) (ts : List LT) : Option MOut := runM z conv g junk P k [.n .start] (MSt.init ts)

/-- `snek_exec`, snek-exec.c:718-743 and :1005-1006, entered when `snek_abort` is set already: the instructions executed. (`snek_code` is
NULL for an empty command.) -/
def ranAborted (W : Nat) (code : List UInt8) : List Ins := if code = [] then [] else [(fetch W code 0).1]

end Snek.Scarce
