import Verif.Model.Ast
import Verif.Model.Bytecode
/-!
# Code generation

The actions of the grammar (snek-gram.ll, snek-parse.c:163-216) on the compile buffer, in the order the parser runs them for
a given tree. What the actions keep on the parser's value stack (`value_push_*`, `value_pop`) are Lean variables here;
`Model/Pda` has the stack, and C76 shows that it makes no difference while there is room on it.
The parser's rejections (more than 255 elements, actuals, ...) are not modelled: trees that large are excluded in the theorems.
-/
namespace Snek.Lang
open Snek.Vm

variable (W : Nat) (conv : BitVec 32 → BitVec 8)

/-- The opcode of a comparison token. -/
def relIns (r : RelOp) : Ins := .rel r

/-- `SNEK_OP_SLICE_*`, snek.h:402-404, and the sum of snek-gram.ll:415-418. -/
def sliceFlags (start stop stride : OptE) : UInt8 :=
  UInt8.ofNat (start.isSome.toNat + 2 * stop.isSome.toNat + 4 * stride.isSome.toNat)

mutual
/-- Expressions, snek-gram.ll:296-633. -/
def emitE : Expr → Buf → Buf
  | .num u, b => b.add W (numIns conv u)                                     -- :512-515
  | .str o, b => b.add W (.string o)                                         -- :516-530, snek-code.c:180-189
  | .name x, b => b.add W (.id x)                                            -- :508-511
  | .unary op e, b => (emitE e b).add W (.unary op)                          -- unop_first / unop_second
  | .binary op a c, b => (emitE c (emitE a b).pushPrev).add W (.arith op)    -- binop_first / binop_second
  | .and a c, b =>                                                           -- bool_branch / short_second
    let b := (emitE a b).add W (.branchFalse 0)
    let off := b.prev
    let b := emitE c b
    (b.patchBranch W off b.cur).add W .nop
  | .or a c, b =>
    let b := (emitE a b).add W (.branchTrue 0)
    let off := b.prev
    let b := emitE c b
    (b.patchBranch W off b.cur).add W .nop
  | .cmp a r c more, b =>                                                    -- :317-353
    let b := emitE a b
    -- the first link: `cmp_off` was 0, becomes the offset of the previous instruction
    let off := b.prev
    let b := (emitE c b.pushPrev).add W (relIns r)
    emitChain off more b
  | .index a i, b => (emitE i (emitE a b).pushPrev).add W .array             -- :405-423
  | .slice a s e t, b =>                                                     -- :409-418, 442-480
    let b := (emitE a b).pushPrev
    let b := emitOpt1 s b
    let b := emitOpt2 e b
    let b := emitOpt2 t b
    b.pushPrev.add W (.slice (sliceFlags s e t))
  | .call f args named, b =>                                                 -- :431-439
    let b := (emitE f b).pushPrev
    let b := emitArgs args b
    let b := emitNamed named b
    b.add W (.call (args.length + 256 * named.length))
  | .build k es, b => (emitArgs es b).add W (.mk k es.length)                -- :482-507, 539-550

/-- `expr-cmp-p` after the first link, and the end of `expr-cmp`, snek-gram.ll:321-353; `off` is `cmp_off`. -/
def emitChain (off : Nat) : Chain → Buf → Buf
  | .nil, b => if off ≠ 0 then (b.patchFwd W off b.cur fwCmp b.cur).add W .nop else b
  | .cons r c more, b =>
    if off ≠ 0 then
      let prevCmp := (b.bytes[b.prev]?.getD 0).toNat
      let b := (b.deletePrev.addForwardOp W fwCmp (prevCmp + 6)).pushPrev
      emitChain off more ((emitE c b).add W (relIns r))
    else
      let off := b.prev
      emitChain off more ((emitE c b.pushPrev).add W (relIns r))

/-- First bound of a slice (`array-index`, snek-gram.ll:443-459): no push yet. -/
def emitOpt1 : OptE → Buf → Buf
  | .none, b => b
  | .some e, b => emitE e b

/-- Later bounds (`opt-expr`, snek-gram.ll:471-480): the previous instruction gets its push flag first. -/
def emitOpt2 : OptE → Buf → Buf
  | .none, b => b
  | .some e, b => emitE e b.pushPrev

/-- Positional actuals and elements, snek-gram.ll:557-570, 595-633. -/
def emitArgs : Exprs → Buf → Buf
  | .nil, b => b
  | .cons e es, b => emitArgs es (emitE e b).pushPrev

/-- Named actuals, `actual-p`, snek-gram.ll:571-594: the name was compiled as a variable reference, which is replaced by a
number. -/
def emitNamed : Named → Buf → Buf
  | .nil, b => b
  | .cons x e rest, b =>
    let b := (b.add W (.id x)).deletePrev
    let b := (b.add W (numIns conv (intToF x))).pushPrev
    emitNamed rest (emitE e b).pushPrev
end

/-- `patch_loop`, snek-parse.c:183-194. -/
def patchLoop (topOff whileOff endOff elseOff : Nat) (b : Buf) : Buf :=
  let b := b.patchBranch W whileOff elseOff
  let b := b.patchBranch W endOff topOff
  let b := b.patchFwd W whileOff endOff fwContinue topOff
  b.patchFwd W whileOff endOff fwBreak b.cur

mutual
/-- Statements, snek-gram.ll:82-294; `fd` is `for_depth`. -/
def emitS (fd : Nat) : Stmt → Buf → Buf
  | .skip, b => b
  | .line n, b => b.add W (.line n)                                          -- snek_code_add_line
  | .seq a c, b => emitS fd c (emitS fd a b)
  | .expr e, b => emitE W conv e b
  | .assign op x e, b =>                                                     -- :124-158, add_op_lvalue
    let b := (emitE W conv (.name x) b).deletePrev
    (emitE W conv e b).add W (.assign op x)
  | .assignIdx op a i e, b =>
    let b := emitE W conv (.index a i) b
    let b := (b.setPush b.prevPrev).deletePrev
    (emitE W conv e b).add W (.assign op 0)
  | .ret .none, b => (b.add W .null).add W .ret                              -- :96-97, 120-123
  | .ret (.some e), b => (emitE W conv e b).add W .ret
  | .brk, b => b.addForward W fwBreak
  | .cont, b => b.addForward W fwContinue
  | .global x, b => b.add W (.global x)
  | .del x, b =>                                                             -- :104-119
    let b := (emitE W conv (.name x) b).deletePrev
    b.add W (.del x)
  | .delIdx a i, b =>
    let b := (emitE W conv (.index a i) b).deletePrev
    b.add W (.del 0)
  | .assert e, b => (emitE W conv e b).add W .assert
  | .ifs c t els, b =>                                                       -- :175-183, 208-215
    let b := (emitE W conv c b).add W (.branchFalse 0)
    let ifOff := b.prev
    let b := emitS fd t b
    let (elifOff, b) := emitElse fd els b
    let b := b.patchBranch W ifOff elifOff
    b.patchFwd W ifOff b.cur fwIf b.cur
  | .whil c body els, b =>                                                   -- :216-240
    let topOff := b.cur
    let b := (emitE W conv c b).add W (.branchFalse 0)
    let whileOff := b.prev
    let b := (emitS fd body b).add W (.branch 0)
    let endOff := b.prev
    let elseOff := b.cur
    let b := emitS fd els b
    patchLoop W topOff whileOff endOff elseOff b
  | .forRange x args body els, b =>                                          -- :241-271, snek-code.c:194-206
    let b := emitArgs W conv args b
    let b := b.add W (.rangeStart args.length (UInt8.ofNat fd) x)
    let b := b.add W (.rangeStep 0 (UInt8.ofNat fd) x)
    let off := b.prev
    let b := (emitS (fd + 1) body b).add W (.branch 0)
    let endOff := b.prev
    let elseOff := b.cur
    let b := emitS fd els b
    patchLoop W off off endOff elseOff b
  | .forIn x e body els, b =>                                                -- :241-257, 272-277, snek-code.c:211-238
    let b := emitE W conv e b
    let b := b.add W (.assign .plain (forTmp W (UInt8.ofNat fd) 0))
    let b := b.add W (numIns conv 0)
    let b := b.add W (.assign .plain (forTmp W (UInt8.ofNat fd) 1))
    let b := b.add W (.inStep 0 (UInt8.ofNat fd) x)
    let off := b.prev
    let b := (emitS (fd + 1) body b).add W (.branch 0)
    let endOff := b.prev
    let elseOff := b.cur
    let b := emitS fd els b
    patchLoop W off off endOff elseOff b

/-- `elif-stats`, snek-gram.ll:184-207: returns `elif_stats_off`. -/
def emitElse (fd : Nat) : Else → Buf → Nat × Buf
  | .none, b => (b.cur, b)
  | .els s, b =>
    let b := b.addForward W fwIf
    let off := b.cur
    (off, emitS fd s b)
  | .elif l c t rest, b =>
    let b := (b.add W (.line l)).addForward W fwIf
    let off := b.cur
    let b := (emitE W conv c b).add W (.branchFalse 0)
    let ifOff := b.prev
    let b := emitS fd t b
    let (elifOff, b) := emitElse fd rest b
    (off, b.patchBranch W ifOff elifOff)
end

/-- `opt-named-p`, snek-gram.ll:71-81: defaults are compiled at the start of the function. -/
def emitDefaults : Named → Buf → Buf
  | .nil, b => b
  | .cons x e rest, b => emitDefaults rest ((emitE W conv e b).add W (.assign .named x))

/-- `snek_code_reset`, snek-code.c:269-275 (`prev` keeps its value; here 0). -/
def Buf.empty : Buf := ⟨[], 0, 0⟩

/-- `DEF`, snek-gram.ll:31-53: the code of a function. -/
def emitDef (f : FunDef) : List UInt8 :=
  let b := emitS W conv 0 f.body (emitDefaults W conv f.defaults Buf.empty)
  if (b.bytes[b.prev]?.getD 0).toNat = 65 then b.deletePrev.bytes else (b.add W .null).bytes

/-- A command, snek-gram.ll:17-30: the code of a statement. -/
def emitCommand (s : Stmt) : List UInt8 := (emitS W conv 0 s Buf.empty).bytes

end Snek.Lang
