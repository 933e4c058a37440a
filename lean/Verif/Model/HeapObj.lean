/-
The objects snek keeps in the pool, with what the collector does to each:
size, mark and move callbacks.
-/
import Verif.Model.Gc
import Verif.Model.Cmp

namespace Snek.Gc

/-- The three kinds of pool value a poly can name (snek.h:179-185). -/
inductive RefKind | list | string | func
deriving DecidableEq, Repr

/-- A value as the collector sees it: `snek_poly_mark`/`snek_poly_move` leave floats and
builtins alone and follow anything else (snek-memory.c:570-601, 682-712). -/
inductive Val
  | imm (w : Nat)
  | ref (k : RefKind) (o : Nat)
deriving DecidableEq, Repr

/-- The offset a value refers to, if any. -/
def Val.ptrs : Val → List Nat
  | .imm _ => []
  | .ref _ o => [o]

/-- `snek_poly_move` (snek-memory.c:682-712): new offset, same type bits. -/
def Val.rename (f : Nat → Nat) : Val → Val
  | .imm w => .imm w
  | .ref k o => .ref k (f o)

/-- Bytecode as `code_mark`/`code_move` see it (snek-code.c:333-369): bytes, and the
operand of a string instruction.  That this is what the scan finds in real
bytecode is the subject of C33. -/
inductive CodeItem
  | byte (b : Nat)
  | str (o : Nat)
deriving DecidableEq, Repr

def CodeItem.ptrs : CodeItem → List Nat
  | .byte _ => []
  | .str o => [o]

def CodeItem.rename (f : Nat → Nat) : CodeItem → CodeItem
  | .byte b => .byte b
  | .str o => .str (f o)

/-- Bytes taken by an item; `w` is `sizeof (snek_offset_t)`. -/
def CodeItem.bytes (w : Nat) : CodeItem → Nat
  | .byte _ => 1
  | .str _ => w

/-- Everything that lives in the pool.
 * `str`: text and terminator (snek-string.c)
 * `list`: header of a list, tuple or dictionary (snek.h:210-215)
 * `store`: its storage, `elems` being the first `size` slots (snek-list.c:29-53)
 * `func` (snek.h:237-242), `bytecode` (217-220), `frame` (256-262), `name` (246-249)
 * `compile`: the compiler's buffer (snek-code.c:26-28). -/
inductive Obj
  | str (text : List Nat)
  | list (ty : LType) (size alloc : Nat) (data : Nat)
  | store (alloc : Nat) (elems : List Val)
  | func (nrequired : Nat) (code : Option Nat) (formals : List Nat)
  | bytecode (items : List CodeItem)
  | frame (prev code : Option Nat) (ip : Nat) (vars : List (Nat × Val))
  | name (next : Option Nat) (text : List Nat)
  | compile (alloc : Nat) (items : List CodeItem)
deriving DecidableEq, Repr

/-- The `size` callbacks followed by `snek_size_round`: snek_string_size, snek_list_size
(snek-list.c:353-358) and the data block (367), snek_func_size (snek-func.c:145-151),
snek_code_size (snek-code.c:325-331), snek_frame_size (snek-frame.c:209-215),
snek_name_size, _snek_compile_size (snek-code.c:395-400).  `w` is
`sizeof (snek_offset_t)`; a variable is taken as 8 bytes as on 32-bit targets. -/
def Obj.size (w : Nat) : Obj → Nat
  | .str t => sizeRound (t.length + 1)
  | .list _ _ _ _ => sizeRound (4 * w)
  | .store alloc _ => alloc * 4
  | .func _ _ formals => sizeRound (2 * w + formals.length * w)
  | .bytecode items => sizeRound (w + (items.map (CodeItem.bytes w)).sum)
  | .frame _ _ _ vars => sizeRound (4 * w + vars.length * 8)
  | .name _ t => sizeRound (w + t.length + 1)
  | .compile alloc _ => sizeRound alloc

/-- What the `mark` callbacks follow, in order: snek_list_mark (snek-list.c:360-371;
the elements are attributed to the data block, which has exactly one owner),
snek_func_mark (snek-func.c:153-159), snek_code_mark and snek_compile_mark
(snek-code.c:371-377, 402-406), snek_frame_mark (snek-frame.c:217-236, one frame of
the chain it follows), snek_name_mark (snek-name.c, one name of the chain). -/
def Obj.ptrs : Obj → List Nat
  | .str _ => []
  | .list _ _ alloc data => if alloc = 0 then [] else [data]
  | .store _ elems => elems.flatMap Val.ptrs
  | .func _ code _ => code.toList
  | .bytecode items => items.flatMap CodeItem.ptrs
  | .frame prev code _ vars => vars.flatMap (fun v => v.2.ptrs) ++ (code.toList ++ prev.toList)
  | .name next _ => next.toList
  | .compile _ items => items.flatMap CodeItem.ptrs

/-- What the `move` callbacks rewrite: snek_list_move (snek-list.c:373-384),
snek_func_move (snek-func.c:161-167), snek_code_move and snek_compile_move
(snek-code.c:379-385, 408-412), snek_frame_move (snek-frame.c:238-254),
snek_name_move (snek-name.c). -/
def Obj.rename (f : Nat → Nat) : Obj → Obj
  | .str t => .str t
  | .list ty size alloc data => .list ty size alloc (if alloc = 0 then data else f data)
  | .store alloc elems => .store alloc (elems.map (Val.rename f))
  | .func nr code formals => .func nr (code.map f) formals
  | .bytecode items => .bytecode (items.map (CodeItem.rename f))
  | .frame prev code ip vars => .frame (prev.map f) (code.map f) ip (vars.map fun v => (v.1, v.2.rename f))
  | .name next t => .name (next.map f) t
  | .compile alloc items => .compile alloc (items.map (CodeItem.rename f))

/-- Pool objects of a build whose offsets take `w` bytes. -/
def PObj (_w : Nat) : Type := Obj

instance (w : Nat) : HeapObj (PObj w) where
  size := Obj.size w
  ptrs := Obj.ptrs
  rename := Obj.rename

end Snek.Gc
