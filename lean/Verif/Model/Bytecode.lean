import Verif.Model.Number
import Verif.Model.Frame
/-!
# Bytecode

The instruction set (snek.h:81-170), its encoding in bytes as the compiler writes it (snek-code.c) and as the virtual machine
reads it (snek-exec.c:732-1015), and the buffer the compiler writes to.

`W` is `sizeof (snek_offset_t)` = `sizeof (snek_id_t)`: 2 when the pool has at most 64 kB, else 4 (snek.h:60-72). All
supported machines are little-endian. Opcode numbers are those of the configuration with dictionaries and slices.

Simplification: the compile buffer never runs out of memory (`compile_extend`, snek-code.c:98-112, drops the bytes then; the
error flag it raises stops the parse).
-/
namespace Snek.Vm

/-- Ordering comparisons, snek.h:82-87. -/
inductive CmpOp | eq | ne | gt | lt | ge | le
  deriving DecidableEq, Repr

/-- Numeric value, snek.h:82-87. -/
def CmpOp.num : CmpOp → Nat
  | .eq => 0 | .ne => 1 | .gt => 2 | .lt => 3 | .ge => 4 | .le => 5

/-- Inverse of `CmpOp.num`. -/
def CmpOp.dec (n : Nat) : CmpOp :=
  if n = 0 then .eq else if n = 1 then .ne else if n = 2 then .gt else if n = 3 then .lt else if n = 4 then .ge else .le

/-- Tokens accepted as comparison operator (`cmpop`, snek-gram.ll:354-357). -/
inductive RelOp | cmp (c : CmpOp) | is | isNot | isIn | notIn
  deriving DecidableEq, Repr

/-- Opcode, snek.h:82-99. -/
def RelOp.num : RelOp → Nat
  | .cmp c => c.num
  | .is => 12 | .isNot => 13 | .isIn => 14 | .notIn => 15

/-- Position of an arithmetic operator after `snek_op_plus` / `snek_op_assign_plus`, snek.h:103-127. -/
def _root_.Snek.BinOp.num : BinOp → Nat
  | .plus => 0 | .minus => 1 | .times => 2 | .divide => 3 | .div => 4 | .mod => 5 | .pow => 6
  | .land => 7 | .lor => 8 | .lxor => 9 | .lshift => 10 | .rshift => 11

/-- Inverse of `BinOp.num`. -/
def _root_.Snek.BinOp.dec (n : Nat) : BinOp :=
  if n = 0 then .plus else if n = 1 then .minus else if n = 2 then .times else if n = 3 then .divide
  else if n = 4 then .div else if n = 5 then .mod else if n = 6 then .pow else if n = 7 then .land
  else if n = 8 then .lor else if n = 9 then .lxor else if n = 10 then .lshift else .rshift

/-- Kinds of assignment: `=`, parameter default, `op=`; snek.h:116-130. -/
inductive AOp | plain | named | aug (op : BinOp)
  deriving DecidableEq, Repr

/-- Opcode, snek.h:116-130. -/
def AOp.num : AOp → Nat
  | .aug op => 29 + op.num
  | .plain => 41
  | .named => 42

/-- Container literals, snek.h:135-139. -/
inductive MkKind | list | tuple | dict
  deriving DecidableEq, Repr

/-- Position after `snek_op_list` (also the list type passed to `snek_list_imm`, snek-exec.c:836). -/
def MkKind.num : MkKind → Nat
  | .list => 0 | .tuple => 1 | .dict => 2

/-- Unary operators, snek.h:142-144. -/
inductive UnOp | not | uminus | lnot
  deriving DecidableEq, Repr

/-- Position after `snek_op_not`. -/
def UnOp.num : UnOp → Nat
  | .not => 0 | .uminus => 1 | .lnot => 2

/-- An instruction with its operands. -/
inductive Ins
  | rel (r : RelOp)
  | chain (c : CmpOp) (target : Nat)
  | array
  | arith (op : BinOp)
  | assign (a : AOp) (id : Nat)
  | num (u : BitVec 32)
  | int (b : UInt8)
  | string (off : Nat)
  | mk (k : MkKind) (n : Nat)
  | id (x : Nat)
  | unary (u : UnOp)
  | call (n : Nat)
  | slice (flags : UInt8)
  | global (x : Nat)
  | del (x : Nat)
  | assert
  | branch (t : Nat)
  | branchTrue (t : Nat)
  | branchFalse (t : Nat)
  | forward (f : Nat)
  | rangeStart (n : Nat) (depth : UInt8) (x : Nat)
  | rangeStep (t : Nat) (depth : UInt8) (x : Nat)
  | inStep (t : Nat) (depth : UInt8) (x : Nat)
  | ret
  | line (n : Nat)
  | null
  | nop
  deriving DecidableEq, Repr

/-- Opcode numbers, snek.h:81-168. -/
def Ins.opcode : Ins → Nat
  | .rel r => r.num
  | .chain c _ => 6 + c.num
  | .array => 16
  | .arith op => 17 + op.num
  | .assign a _ => a.num
  | .num _ => 43
  | .int _ => 44
  | .string _ => 45
  | .mk k _ => 46 + k.num
  | .id _ => 49
  | .unary u => 50 + u.num
  | .call _ => 53
  | .slice _ => 54
  | .global _ => 55
  | .del _ => 56
  | .assert => 57
  | .branch _ => 58
  | .branchTrue _ => 59
  | .branchFalse _ => 60
  | .forward _ => 61
  | .rangeStart .. => 62
  | .rangeStep .. => 63
  | .inStep .. => 64
  | .ret => 65
  | .line _ => 66
  | .null => 67
  | .nop => 68

/-- The operand bytes the `snek_code_add_*` functions write after the opcode, snek-code.c:130-232, snek.h:437-471. -/
def Ins.operands (W : Nat) : Ins → List UInt8
  | .chain _ t | .branch t | .branchTrue t | .branchFalse t | .forward t | .line t => leBytes W t
  | .assign _ x | .id x | .global x | .del x => leBytes W x
  | .num u => leBytes 4 u.toNat
  | .int b => [b]
  | .string o => leBytes W o
  | .mk _ n => leBytes W n
  | .call n => leBytes W n
  | .slice f => [f]
  | .rangeStart n d x | .rangeStep n d x | .inStep n d x => leBytes W n ++ (d :: leBytes W x)
  | _ => []

/-- The bytes of an instruction; `snek_op_push` is 0x80, snek.h:169. -/
def encode (W : Nat) (i : Ins) (push : Bool) : List UInt8 :=
  UInt8.ofNat (i.opcode + if push then 128 else 0) :: i.operands W

/-- Length in bytes. -/
def Ins.size (W : Nat) (i : Ins) : Nat := 1 + (i.operands W).length

/-- `memcpy` of a `k`-byte little-endian operand at offset `at`. -/
def rd (C : List UInt8) (k off : Nat) : Nat := leNat ((C.drop off).take k)

/-- What the virtual machine reads at `ip`: the instruction, the push flag and the offset after the operands
(snek-exec.c:740-743 and the `memcpy`s of the switch). An opcode not in the switch does nothing, like `nop`. -/
def fetch (W : Nat) (C : List UInt8) (ip : Nat) : Ins × Bool × Nat :=
  let b := (C[ip]?.getD 0).toNat
  let op := b % 128
  let push := decide (128 ≤ b)
  let ip := ip + 1
  if op < 6 then (.rel (.cmp (CmpOp.dec op)), push, ip)
  else if op < 12 then (.chain (CmpOp.dec (op - 6)) (rd C W ip), push, ip + W)
  else if op < 13 then (.rel .is, push, ip)
  else if op < 14 then (.rel .isNot, push, ip)
  else if op < 15 then (.rel .isIn, push, ip)
  else if op < 16 then (.rel .notIn, push, ip)
  else if op < 17 then (.array, push, ip)
  else if op < 29 then (.arith (BinOp.dec (op - 17)), push, ip)
  else if op < 41 then (.assign (.aug (BinOp.dec (op - 29))) (rd C W ip), push, ip + W)
  else if op < 42 then (.assign .plain (rd C W ip), push, ip + W)
  else if op < 43 then (.assign .named (rd C W ip), push, ip + W)
  else if op < 44 then (.num (BitVec.ofNat 32 (rd C 4 ip)), push, ip + 4)
  else if op < 45 then (.int (C[ip]?.getD 0), push, ip + 1)
  else if op < 46 then (.string (rd C W ip), push, ip + W)
  else if op < 47 then (.mk .list (rd C W ip), push, ip + W)
  else if op < 48 then (.mk .tuple (rd C W ip), push, ip + W)
  else if op < 49 then (.mk .dict (rd C W ip), push, ip + W)
  else if op < 50 then (.id (rd C W ip), push, ip + W)
  else if op < 51 then (.unary .not, push, ip)
  else if op < 52 then (.unary .uminus, push, ip)
  else if op < 53 then (.unary .lnot, push, ip)
  else if op < 54 then (.call (rd C W ip), push, ip + W)
  else if op < 55 then (.slice (C[ip]?.getD 0), push, ip + 1)
  else if op < 56 then (.global (rd C W ip), push, ip + W)
  else if op < 57 then (.del (rd C W ip), push, ip + W)
  else if op < 58 then (.assert, push, ip)
  else if op < 59 then (.branch (rd C W ip), push, ip + W)
  else if op < 60 then (.branchTrue (rd C W ip), push, ip + W)
  else if op < 61 then (.branchFalse (rd C W ip), push, ip + W)
  else if op < 62 then (.forward (rd C W ip), push, ip + W)
  else if op < 63 then (.rangeStart (rd C W ip) (C[ip + W]?.getD 0) (rd C W (ip + W + 1)), push, ip + W + 1 + W)
  else if op < 64 then (.rangeStep (rd C W ip) (C[ip + W]?.getD 0) (rd C W (ip + W + 1)), push, ip + W + 1 + W)
  else if op < 65 then (.inStep (rd C W ip) (C[ip + W]?.getD 0) (rd C W (ip + W + 1)), push, ip + W + 1 + W)
  else if op < 66 then (.ret, push, ip)
  else if op < 67 then (.line (rd C W ip), push, ip + W)
  else if op < 68 then (.null, push, ip)
  else (.nop, push, ip)

/-- `snek_op_operand_size`, snek-code.c:37-90, as written: there is no case for `snek_op_dict` (48). -/
def operandSize (W : Nat) (op : Nat) : Nat :=
  if op = 43 then 4
  else if op = 44 then 1
  else if op = 45 ∨ op = 46 ∨ op = 47 then W
  else if op = 49 ∨ op = 56 ∨ op = 55 ∨ (29 ≤ op ∧ op ≤ 42) then W
  else if op = 53 then W
  else if op = 54 then 1
  else if (6 ≤ op ∧ op ≤ 11) ∨ op = 58 ∨ op = 59 ∨ op = 60 ∨ op = 61 ∨ op = 66 then W
  else if op = 62 ∨ op = 63 ∨ op = 64 then W + 1 + W
  else 0

/-- `memcpy` into the buffer. -/
def overwrite (C : List UInt8) (off : Nat) (l : List UInt8) : List UInt8 := C.take off ++ l ++ C.drop (off + l.length)

/-- `snek_code_patch_forward`, snek-code.c:239-264. -/
def patchForward (W : Nat) (C : List UInt8) (ip stop kind target : Nat) : List UInt8 :=
  if ip < stop then
    let b := (C[ip]?.getD 0).toNat
    let op := b % 128
    let f := rd C W (ip + 1)
    let C' := if op = 61 ∧ f % 256 = kind then
        overwrite (C.set ip (UInt8.ofNat (f / 256) ||| UInt8.ofNat (b / 128 * 128))) (ip + 1) (leBytes W target)
      else C
    patchForward W C' (ip + 1 + operandSize W op) stop kind target
  else C
termination_by stop - ip
decreasing_by omega

/-- The offsets of the string constants `code_mark` visits, snek-code.c:328-346 (`code_move` walks the same way,
snek-code.c:348-364). -/
def codeStrings (W : Nat) (C : List UInt8) (ip : Nat) : List Nat :=
  if ip < C.length then
    let op := (C[ip]?.getD 0).toNat % 128
    let rest := codeStrings W C (ip + 1 + operandSize W op)
    if op = 45 then rd C W (ip + 1) :: rest else rest
  else []
termination_by C.length - ip
decreasing_by omega

/-- `code_move`, snek-code.c:348-364: the operand of every string instruction is replaced (`snek_move_block_offset` looks up
where the string went, here `f`). -/
def codeMove (W : Nat) (f : Nat → Nat) (C : List UInt8) (ip stop : Nat) : List UInt8 :=
  if ip < stop then
    let op := (C[ip]?.getD 0).toNat % 128
    let C' := if op = 45 then overwrite C (ip + 1) (leBytes W (f (rd C W (ip + 1)))) else C
    codeMove W f C' (ip + 1 + operandSize W op) stop
  else C
termination_by stop - ip
decreasing_by omega

/-- The loop of `snek_code_line`, snek-code.c:301-317 (the push flag is not masked off). -/
def codeLine (W : Nat) (C : List UInt8) (ip : Nat) : Nat :=
  if ip < C.length then
    let op := (C[ip]?.getD 0).toNat
    if op = 66 then rd C W (ip + 1) else codeLine W C (ip + 1 + operandSize W op)
  else 0
termination_by C.length - ip
decreasing_by omega

/-- `snek_compile`, `snek_compile_size` (the length), `snek_compile_prev`, `snek_compile_prev_prev`, snek-code.c:26-30. -/
structure Buf where
  bytes : List UInt8
  prev : Nat
  prevPrev : Nat
  deriving DecidableEq, Repr

/-- `snek_code_current`, snek.h:1063-1067. -/
def Buf.cur (b : Buf) : Nat := b.bytes.length

/-- `snek_code_add_op` followed by `compile_extend`s of the operands, snek-code.c:130-232. -/
def Buf.add (W : Nat) (i : Ins) (b : Buf) : Buf := ⟨b.bytes ++ encode W i false, b.bytes.length, b.prev⟩

/-- `snek_code_delete_prev`, snek-code.c:120-125 (`prevPrev` keeps its stale value). -/
def Buf.deletePrev (b : Buf) : Buf := ⟨b.bytes.take b.prev, b.prevPrev, b.prevPrev⟩

/-- `snek_code_set_push`, snek.h:1087-1091. -/
def Buf.setPush (off : Nat) (b : Buf) : Buf :=
  { b with bytes := b.bytes.set off (b.bytes[off]?.getD 0 ||| 0x80) }

/-- `snek_code_set_push(snek_code_prev_insn())`. -/
def Buf.pushPrev (b : Buf) : Buf := b.setPush b.prev

/-- `snek_code_patch_branch`, snek.h:482-486. -/
def Buf.patchBranch (W : Nat) (branch target : Nat) (b : Buf) : Buf :=
  { b with bytes := overwrite b.bytes (branch + 1) (leBytes W target) }

/-- `snek_code_patch_forward` on the buffer. -/
def Buf.patchFwd (W : Nat) (start stop kind target : Nat) (b : Buf) : Buf :=
  { b with bytes := patchForward W b.bytes start stop kind target }

/-- `snek_forward_t`, snek.h:172-177. -/
def fwBreak : Nat := 0
/-- snek.h:174 -/
def fwContinue : Nat := 1
/-- snek.h:175 -/
def fwIf : Nat := 2
/-- snek.h:176 -/
def fwCmp : Nat := 3

/-- `snek_code_add_forward_op`, snek.h:444-450. -/
def Buf.addForwardOp (W : Nat) (kind op : Nat) (b : Buf) : Buf := b.add W (.forward (kind + op * 256))

/-- `snek_code_add_forward`, snek.h:452-456. -/
def Buf.addForward (W : Nat) (kind : Nat) (b : Buf) : Buf := b.addForwardOp W kind 58

/-- `snek_code_add_number`, snek-code.c:165-175: the instruction chosen. The conversion to `int8_t` is undefined in C when
the truncated value does not fit; `conv` gives what the compiler makes of it (only the comparison decides). -/
def numIns (conv : BitVec 32 → BitVec 8) (u : BitVec 32) : Ins :=
  let i8 : BitVec 8 := match fToInt 8 u with
    | some i => BitVec.ofInt 8 i
    | none => conv u
  if feq (intToF i8.toInt) u then .int (UInt8.ofBitVec i8) else .num u

/-- `snek_a.f = (int8_t) snek_code->code[ip]`, snek-exec.c:811. -/
def intVal (b : UInt8) : BitVec 32 := intToF b.toBitVec.toInt

/-- `snek_for_tmp`, snek.h:411-415 (`snek_id_t` has `8 * W` bits; SNEK_OFFSET_NONE is `2 ^ (8 * W) - 4`). -/
def forTmp (W : Nat) (depth : UInt8) (i : Nat) : Nat := 2 ^ (8 * W) - 4 - 1 - (depth.toNat * 2 + i)

end Snek.Vm
