import Verif.Model.Vm
import Verif.Model.HeapCmp
import Verif.Model.Iter
import Verif.Model.Builtin
/-!
# The whole machine

Puts the virtual machine (`Model/Vm`), the containers in memory (`Model/Store`, `Model/HeapCmp`), formatting (`Model/Format`) and the
builtin functions (`Model/Builtin`) together: the parameter `Prim` of the machine with the operations of the code. What is left open is
the target (`Cfg`): its C library, the answers of the allocator, and the builtin functions that are not modelled (those of the devices,
`math`, `random`, `time`, `input` and `sys.stdout.flush`), which read values and memory and give a number, `None`, a fresh string, a
fresh tuple of numbers, or an error.
-/
namespace Snek.Machine
open Store (Val Obj S Op)
open Vm (Prim RelOp UnOp MkKind AOp)

/-- Something the machine did to memory, in the order it happened (for statements only; the code keeps no such record). -/
inductive Ev
  /-- an operation on containers started in this state -/
  | op (o : Op) (s : S)
  /-- the builtin with this offset was called -/
  | call (off : Nat)
  /-- a string with these bytes was made -/
  | text (b : List UInt8)
  /-- a recursion over this value did not end: the value contains itself -/
  | endless (v : Val)

/-- Memory, what was printed, the devices; `wild`: an operation accessed memory outside of an object (or of the table of builtins). -/
structure World (κ : Type) where
  st : S
  out : List UInt8
  dev : κ
  wild : Bool
  hist : List Ev

/-- What a builtin function that is not modelled gives. -/
inductive Ret | none | num (u : BitVec 32) | str (b : List UInt8) | tuple (l : List (BitVec 32)) | error

/-- An entry of the table of builtins (snek-builtin.py makes it from the `.builtin` files): a constant, one of the modelled functions, or
another function with this many formals (`none`: any, `nformal` is -1). -/
inductive Bi
  | const (v : Option (BitVec 32))
  | print | len | ord | chr | abs | int | float | str
  | other (formals : Option Nat)

/-- The target and the interpreter's configuration. -/
structure Cfg (κ : Type) where
  /-- offsets and integers -/
  A : Arch
  /-- `SNEK_STACK` -/
  cap : Nat
  /-- `char` is signed -/
  signedChar : Bool
  /-- the C library's formats, `powf`, `strtof` -/
  L : Format.Lib
  powf : BitVec 32 → BitVec 32 → BitVec 32
  strtof : List UInt8 → BitVec 32
  /-- results of undefined conversions and of operations that reported an error -/
  any : BinOp → BitVec 32 → BitVec 32 → BitVec 32
  anyOff : BitVec 32 → Int
  /-- builtins: `SNEK_BUILTIN_MAX_BUILTIN`, the table, `SNEK_BUILTIN_end` -/
  builtinMax : Nat
  table : Nat → Bi
  endId : Nat
  /-- the functions that are not modelled: builtin number, positional and named values, memory, devices -/
  other : Nat → List Val → List Val → List Obj → κ → Ret × κ
  /-- see `funcBind` -/
  beyond : World κ → Nat → Nat
  /-- how values are stored in variables -/
  word : Val → Poly
  /-- padding of a variable -/
  pad : Nat

variable {κ : Type} (C : Cfg κ)

/-- The value as a tree; `n` bounds the depth of the recursion. `none`: it needs more, or there is a bad reference. -/
def treeOf (objs : List Obj) : Nat → Val → Option Tree
  | 0, _ => none
  | n + 1, v =>
    match v with
    | .num u => some (.num u)
    | .func i => some (.func i)
    | .builtin i => some (.builtin i)
    | .str i => match objs[i]? with | some (.str b) => some (.str b) | _ => none
    | .list i =>
      match objs[i]? with
      | some (.list o) => ((o.data.take o.size).mapM (treeOf objs n)).map (.list o.type)
      | _ => none

/-- Deeper than the number of objects is endless. -/
def tree (objs : List Obj) (v : Val) : Option Tree := treeOf objs (objs.length + 2) v

/-- `snek_string_interpolate` on memory. A number that cannot be converted to `int` (undefined in C) counts as an error here. -/
def fmtOf (objs : List Obj) (a : List UInt8) (v : Val) : Option (Option (List UInt8)) :=
  match tree objs v with
  | none => none
  | some t =>
    match Format.interpolate C.L a t with
    | .str s => some (some s)
    | .null => some none
    | _ => none

/-- The environment of the container operations. -/
def env : Store.Env := Store.Env.real C.A C.powf (fmtOf C) C.any C.anyOff

/-- Run an operation: an access outside of an object is recorded; the result is lost when an error was raised. -/
def World.run (w : World κ) (f : S → Option (Val × S)) : Option Val × World κ :=
  match f { w.st with abort := false } with
  | none => (none, { w with wild := true })
  | some (v, s) => (if s.abort then none else some v, { w with st := s })

/-- Record what happens. -/
def World.note (w : World κ) (e : Ev) : World κ := { w with hist := e :: w.hist }

/-- Run a container operation. -/
def World.exec (w : World κ) (o : Op) (f : S → Option (Val × S)) : Option Val × World κ :=
  (w.note (.op o { w.st with abort := false })).run f

/-- `snek_poly_true`, snek-poly.c:109-122. -/
def truth (w : World κ) : Val → Bool
  | .num u => !feq u 0
  | .list i => match w.st.lst i with | some o => o.size ≠ 0 | none => false
  | .str i => match w.st.bytes i with | some b => b ≠ [] | none => false
  | _ => false

/-- `snek_is_nan`, snek.h:1017-1021. -/
def valNan : Val → Bool
  | .num u => isNan u
  | _ => false

/-- `snek_poly_cmp(a, b, true) == 0`, snek-poly.c:78-107. -/
def same (s : S) : Val → Val → Bool
  | .num a, .num b => numCmp a b = 0
  | .str i, .str j => s.bytes i = s.bytes j
  | a, b => a = b

/-- The comparisons of `snek_binary`, snek-exec.c:278-303. -/
def holds (c : Vm.CmpOp) (d : Int) : Bool :=
  match c with
  | .eq => d = 0 | .ne => d ≠ 0 | .gt => d > 0 | .lt => d < 0 | .ge => d ≥ 0 | .le => d ≤ 0

/-- `snek_binary` on `== != > < >= <= is in`, snek-exec.c:271-309, 373-407. -/
def rel (r : RelOp) (a b : Val) (w : World κ) : Option Val × World κ :=
  match r with
  | .cmp c =>
    if valNan a || valNan b then (some (Store.ofBool (c = .ne)), w)
    else
      match Store.hcmp w.st.objs (w.st.objs.length + 1) a b with
      | some d => (some (Store.ofBool (holds c d)), w)
      | none => (none, w.note (.endless a))
  | .is => (some (Store.ofBool (same w.st a b)), w)
  | .isNot => (some (Store.ofBool (!same w.st a b)), w)
  | .isIn => w.exec (.isIn true a b) (Store.isIn (env C) true a b)
  | .notIn => w.exec (.isIn false a b) (Store.isIn (env C) false a b)

/-- `-` and `~`, snek-exec.c:860-865. -/
def unary (u : UnOp) (v : Val) (w : World κ) : Option Val × World κ :=
  match v with
  | .num a =>
    match u with
    | .uminus => (some (.num (numUminus a)), w)
    | _ =>
      match numLnot a with
      | .ok r => (some (.num r), w)
      | .undefined => (some (.num (C.any .lxor a a)), w)
      | .error => (none, w)
  | _ => (none, w)

/-- Type of a display. -/
def kind : MkKind → LType
  | .list => .list | .tuple => .tuple | .dict => .dict

/-- `snek_assign` to an element with an operator, snek-exec.c:596-667, with the value that was stored (`Store.augElem` gives the state
only). -/
def augElem (op : BinOp) (lp ip v : Val) (s : S) : Option (Val × S) := do
  match ← Store.elemRef (env C) s lp ip with
  | (none, s) => return (Val.none, s)
  | (some (i, k), s1) =>
    let o ← s1.lst i
    let old ← o.data[k]?
    let (r, s2) ← Store.arith (env C) op true old v s1
    if Store.resized s s1 i then return (r, s2.fail) else return (r, ← Store.storeElem (env C) lp ip r s2)

/-- The element branch of `snek_assign`, snek-exec.c:614-667. -/
def storeIdx (a : AOp) (lp ip v : Val) (w : World κ) : Option Val × World κ :=
  match a with
  | .aug op => w.exec (.aug op lp ip v) (augElem C op lp ip v)
  | _ => w.exec (.store lp ip v) (fun s => (Store.storeElem (env C) lp ip v s).map fun s => (v, s))

/-- `snek_op_del` on an element, snek-exec.c:930-939. -/
def delIdx (lp ip : Val) (w : World κ) : Bool × World κ :=
  let r := w.exec (.del lp ip) (fun s => (Store.delElem (env C) lp ip s).map fun s => (Val.none, s))
  (r.1.isSome, r.2)

/-- The element for iteration number `i` in `snek_in_step`, snek-exec.c:211-231. -/
def iter (v : Val) (i : Int) (w : World κ) : Option Val × World κ :=
  match v with
  | .list k =>
    match w.st.lst k with
    | some o => (some (Vm.iterElem (C.A.offBits / 8) (o.type = .dict) (o.data.take o.size) i), w)
    | none => (none, { w with wild := true })
  | .str k =>
    match w.st.bytes k with
    | some b =>
      match Vm.stringAt (C.A.offBits / 8) b i with
      | some c => w.run fun s => Store.newStr (env C) s [c]
      | none => (some Val.none, w)
    | none => (none, { w with wild := true })
  | _ => (none, w)

/-- Give a number. -/
def num (u : BitVec 32) (w : World κ) : Option Val × World κ := (some (Val.ofF u), w)

/-- The modelled builtin functions of one argument: snek-builtin.c, snek-input.c:44-68, snek-string.c:239-249. -/
def call1 (b : Bi) (v : Val) (w : World κ) : Option Val × World κ :=
  match b with
  | .len =>
    match Store.len w.st v with
    | some n => num (intToF n) w
    | none => (none, { w with wild := true })
  | .ord =>
    match v with
    | .str i =>
      match w.st.bytes i with
      | some s => num (intToF (if C.signedChar then Format.charInt (s.headD 0) else (s.headD 0).toNat)) w
      | none => (none, { w with wild := true })
    | _ => (none, w)
  | .chr =>
    match v with
    | .num _ =>
      let i := (Store.soff (env C) v).1
      w.run fun s => Store.newStr (env C) s (if i % 256 = 0 then [] else [.ofNat (i % 256).toNat])
    | _ => (none, w)
  | .abs =>
    match v with
    | .num u => num (Builtin.fabs u) w
    | _ => (none, w)
  | .float =>
    match v with
    | .num u => num u w
    | .str i =>
      match w.st.bytes i with
      | some s => num (C.strtof s) w
      | none => (none, { w with wild := true })
    | _ => (none, w)
  | .int =>
    match v with
    | .num u => num (Builtin.truncf u) w
    | .str i =>
      match w.st.bytes i with
      | some s => num (Builtin.truncf (C.strtof s)) w
      | none => (none, { w with wild := true })
    | _ => (none, w)
  | .str =>
    match tree w.st.objs v with
    | none => (none, w.note (.endless v))
    | some t =>
      match Format.fmt C.L 115 t with
      | none => (none, w)
      | some b => (w.note (.text b)).run fun s => Store.newStr (env C) s b
  | _ => (none, w)

/-- `snek_builtin_print`, snek-builtin.c:24-46. -/
def print (pos named : List Val) (w : World κ) : Option Val × World κ :=
  match pos.mapM (tree w.st.objs), ((Vm.pairUp (C.A.offBits / 8) named).mapM fun p => (tree w.st.objs p.2).map (p.1, ·)) with
  | some l, some n =>
    match Builtin.print C.L C.endId l n with
    | some b => (some Val.none, { w with out := w.out ++ b })
    | none => (none, w)
  | _, _ => (none, w.note (.endless Val.none))

/-- A function that is not modelled. -/
def callOther (x : Nat) (pos named : List Val) (w : World κ) : Option Val × World κ :=
  let r := C.other x pos named w.st.objs w.dev
  let w := { w with dev := r.2 }
  match r.1 with
  | .none => (some Val.none, w)
  | .num u => num u w
  | .str b => (w.note (.text b)).run fun s => Store.newStr (env C) s b
  | .tuple l => w.exec (.build .tuple (l.map Val.num)) fun s => Store.imm (env C) s .tuple (l.map Val.num)
  | .error => (none, w)

/-- `snek_call_builtin`, snek-exec.c:673-710, with `snek_poly_to_builtin`, snek.h:965-969: the entry is found by the offset, with no check
that there is one. -/
def callBuiltin (f : Val) (pos named : List Val) (w : World κ) : Option Val × World κ :=
  let x := f.ref / 4
  let w := w.note (.call f.ref)
  if x = 0 ∨ C.builtinMax ≤ x then (none, { w with wild := true })
  else
    match C.table x with
    | .const _ => (none, { w with wild := true })
    | .print => print C pos named w
    | .other none => callOther C x pos named w
    | .other (some n) => if pos.length ≠ n ∨ named ≠ [] then (none, w) else callOther C x pos named w
    | b =>
      match pos, named with
      | [v], [] => call1 C b v w
      | _, _ => (none, w)

/-- `snek_builtin_id_to_poly`, snek.h:951-957. -/
def builtinVal (x : Nat) : Val :=
  match C.table x with
  | .const none => Val.none
  | .const (some u) => .num u
  | _ => .builtin (4 * x)

/-- Ask the allocator for a frame. Frames are not in `S`: the size is not modelled. -/
def World.alloc (w : World κ) : Bool × World κ :=
  let r := w.st.ask 0
  (r.1, { w with st := { r.2 with abort := false } })

/-- The operations of the code, with the code and formals of the functions. -/
def prim (sig : Nat → FuncSig) (code : Nat → List UInt8) : Prim (World κ) where
  W := C.A.offBits / 8
  cap := C.cap
  truth := truth
  rel := rel C
  index a b w := w.exec (.index a b) fun s => Store.index (env C) s a b
  arith op ip a b w :=
    match Store.arith (env C) op ip a b { w.st with abort := false } with
    | none => (Val.none, true, { w.note (.op (.arith op ip a b) { w.st with abort := false }) with wild := true })
    | some (v, s) => (v, s.abort, { w.note (.op (.arith op ip a b) { w.st with abort := false }) with st := s })
  unary := unary C
  slice v p q t w := w.exec (.slice v p q t) (Store.slice (env C) v p q t)
  build k l w := w.exec (.build (kind k) l) fun s => Store.imm (env C) s (kind k) l
  storeIdx := storeIdx C
  delIdx := delIdx C
  builtinMax := C.builtinMax
  builtinVal := builtinVal C
  callBuiltin := callBuiltin C
  sig := sig
  code := code
  beyond := C.beyond
  varAlloc w :=
    let a := w.alloc
    let b := a.2.alloc
    (a.1, b.1, b.2)
  frameAlloc w := w.alloc
  iter := iter C
  varBytes := Store.valVarBytes C.word (C.A.offBits / 8) C.pad

end Snek.Machine
