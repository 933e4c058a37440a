import Verif.Model.Dict
import Verif.Model.Slice
import Verif.Model.Number
import Verif.Model.Val
/-!
# Containers in memory

Models snek-list.c (`snek_list_alloc`, `_resize`, `_make`, `_append`, `_plus`, `_times`, `_ref`, `_get`, `_del`, `_imm`,
`_slice`), the string functions of snek-string.c that build new strings (`_make`, `_get`, `_cat`, `_times`, `_slice`), and the
container cases of `snek_binary` (snek-exec.c:318-470), `snek_slice` (482-573) and the element branch of `snek_assign` (614-667).

Objects live in an append-only list and are referred to by their position: identities are never reused and collection is
invisible (that compaction renames references consistently and keeps what is reachable is C14-C18). Each list object has its
header (`size`, `alloc`) and its own storage of words. A result `none` is an access outside the storage of an object.

Simplifications: rooting pushes on the value stack succeed; raw list pointers stay valid across allocations (`Model/Ptr` models both,
and C75 shows where this one is the same); formatting with `%` and `powf` are parameters.
-/
namespace Snek.Store

/-- `snek_list_t`, snek.h:210-215, with its storage. -/
structure LObj where
  type : LType
  size : Nat
  alloc : Nat
  data : List Val
  deriving DecidableEq, Repr

/-- A heap object. A string is its bytes without the terminator. -/
inductive Obj
  | list (o : LObj)
  | str (s : List UInt8)
  deriving DecidableEq, Repr

/-- The heap, `snek_empty_tuple` (snek-list.c:54), the allocator's answers (does the `n`-th request, for this many bytes,
succeed?), and `snek_abort` (an error was raised). -/
structure S where
  objs : List Obj
  empty : Option Nat
  mem : Nat → Nat → Bool
  clock : Nat
  abort : Bool

/-- What the operations depend on. -/
structure Env where
  /-- offset width and integer arithmetic of the target -/
  A : Arch
  /-- `snek_poly_cmp(a, b, false)`, snek-poly.c:78-107 -/
  cmp : List Obj → Val → Val → Int
  /-- `snek_mutable`, snek-list.c:143-157 -/
  isMut : List Obj → Val → Bool
  powf : BitVec 32 → BitVec 32 → BitVec 32
  /-- `snek_string_interpolate`, snek-string.c:164-231: `none` is a type error, `some none` the null pointer (`Format.Res`) -/
  fmt : List Obj → List UInt8 → Val → Option (Option (List UInt8))
  /-- the number left by an operation that reported an error or is undefined in C -/
  any : BinOp → BitVec 32 → BitVec 32 → BitVec 32
  /-- result of an undefined conversion from float to offset -/
  anyOff : BitVec 32 → Int

variable (E : Env)

/-- Arithmetic on `snek_offset_t` wraps. -/
def Env.off (n : Nat) : Nat := n % 2 ^ (E.A.offBits)

/-- Raise an error. -/
def S.fail (s : S) : S := { s with abort := true }

/-- `snek_alloc`, snek-memory.c:714-732, up to placing the block: a refused request raises an error. -/
def S.ask (s : S) (bytes : Nat) : Bool × S :=
  (s.mem s.clock bytes, { s with clock := s.clock + 1, abort := s.abort || !s.mem s.clock bytes })

/-- Add an object. -/
def S.push (s : S) (o : Obj) : S := { s with objs := s.objs ++ [o] }

/-- The list object number `i`. -/
def S.lst (s : S) (i : Nat) : Option LObj :=
  match s.objs[i]? with
  | some (.list o) => some o
  | _ => Option.none

/-- The string object number `i`. -/
def S.bytes (s : S) (i : Nat) : Option (List UInt8) :=
  match s.objs[i]? with
  | some (.str b) => some b
  | _ => Option.none

/-- Overwrite list object `i`. -/
def S.setl (s : S) (i : Nat) (o : LObj) : S := { s with objs := s.objs.set i (.list o) }

/-! ## Words -/

/-- `memcpy` of `src` to position `p`. -/
def mcpy {α : Type} (d : List α) (p : Nat) (src : List α) : Option (List α) :=
  if p + src.length ≤ d.length then some (d.take p ++ src ++ d.drop (p + src.length)) else Option.none

/-- The first `n` words of the storage. -/
def mread {α : Type} (d : List α) (n : Nat) : Option (List α) := if n ≤ d.length then some (d.take n) else Option.none

/-- `memmove` of `n` words within `d`. -/
def mmove {α : Type} (d : List α) (dst src n : Nat) : Option (List α) :=
  if src + n ≤ d.length ∧ dst + n ≤ d.length then some (d.take dst ++ (d.drop src).take n ++ d.drop (dst + n)) else Option.none

/-- One store. -/
def mset {α : Type} (d : List α) (p : Nat) (x : α) : Option (List α) := if p < d.length then some (d.set p x) else Option.none

/-! ## snek-list.c -/

/-- `snek_list_alloc`, snek-list.c:17-21. -/
def listAlloc (size : Nat) : Nat := E.off (size + size / 8 + if size < 9 then 3 else 6)

/-- `snek_list_resize`, snek-list.c:29-52; `size` is already a `snek_offset_t`. The request for `alloc` words of 4 bytes
passes through a `snek_offset_t`. `false`: no memory. -/
def resize (s : S) (i size : Nat) : Option (Bool × S) := do
  let o ← s.lst i
  if size ≤ o.alloc then return (true, s.setl i { o with size := size })
  let alloc := if o.type.readonly then size else listAlloc E size
  let bytes := E.off (alloc * 4)
  let (ok, s) := s.ask bytes
  if !ok then return (false, s)
  let old ← mread o.data (min size o.size)
  let data ← mcpy (List.replicate (bytes / 4) Val.zero) 0 old
  return (true, s.setl i { o with size := size, alloc := alloc, data := data })

/-- `snek_list_head_alloc`, snek-list.c:56-63. -/
def headAlloc (s : S) (t : LType) : Option Nat × S :=
  let (ok, s) := s.ask (E.A.offBits / 2)
  if ok then (some s.objs.length, s.push (.list ⟨t, 0, 0, []⟩)) else (Option.none, s)

/-- `snek_list_make`, snek-list.c:65-78. -/
def make (s : S) (size : Nat) (t : LType) : Option (Option Nat × S) :=
  if size = 0 ∧ t = .tuple then
    match s.empty with
    | some i => some (some i, s)
    | Option.none =>
      let (r, s) := headAlloc E s t
      some (r, { s with empty := r })
  else
    match headAlloc E s t with
    | (Option.none, s) => some (Option.none, s)
    | (some i, s) => do
      let (ok, s) ← resize E s i size
      return (if ok then some i else Option.none, s)

/-- Copy `src` into the storage of list `i` at `p`. -/
def poke (s : S) (i p : Nat) (src : List Val) : Option S := do
  let o ← s.lst i
  let d ← mcpy o.data p src
  return s.setl i { o with data := d }

/-- The elements a `memcpy` of `n` words from list `i` reads. -/
def peek (s : S) (i n : Nat) : Option (List Val) := do
  let o ← s.lst i
  mread o.data n

/-- `snek_list_append`, snek-list.c:80-102. -/
def append (s : S) (i j : Nat) : Option (Option Nat × S) := do
  let a ← s.lst i
  let b ← s.lst j
  let (ok, s) ← resize E s i (E.off (a.size + b.size))
  if !ok then return (Option.none, s)
  let src ← peek s j b.size
  let s ← poke s i a.size src
  return (some i, s)

/-- `snek_list_plus`, snek-list.c:104-120. -/
def plus (s : S) (i j : Nat) : Option (Option Nat × S) := do
  let a ← s.lst i
  let b ← s.lst j
  match ← make E s (E.off (a.size + b.size)) a.type with
  | (Option.none, s) => return (Option.none, s)
  | (some n, s) =>
    let s ← poke s n 0 (← peek s i a.size)
    let s ← poke s n a.size (← peek s j b.size)
    return (some n, s)

/-- The loop of `snek_list_times`, snek-list.c:135-138. -/
def timesLoop (s : S) (n p : Nat) (src : List Val) : Nat → Option S
  | 0 => some s
  | k + 1 => do
    let s ← poke s n p src
    timesLoop s n (p + src.length) src k

/-- `snek_list_times`, snek-list.c:122-140. -/
def times (s : S) (i : Nat) (count : Int) : Option (Option Nat × S) := do
  let count := if count < 0 then 0 else count.toNat
  let a ← s.lst i
  match ← make E s (E.off (a.size * count)) a.type with
  | (Option.none, s) => return (Option.none, s)
  | (some n, s) =>
    if count = 0 then return (some n, s)
    let src ← peek s i a.size
    return (some n, ← timesLoop s n 0 src count)

/-- `snek_poly_get_soffset`, snek-poly.c:148-165: the offset and whether an error was raised. -/
def soff (v : Val) : Int × Bool :=
  match v with
  | .num u => ((fToInt (E.A.offBits) u).getD ((E.anyOff u).bmod (2 ^ (E.A.offBits))), false)
  | _ => (0, true)

/-- `_snek_list_ref`, snek-list.c:160-209: the position of the slot within the storage. -/
def ref (s : S) (i : Nat) (p : Val) (add : Bool) : Option (Option Nat × S) := do
  let o ← s.lst i
  if o.type = .dict then
    let k ← Dict.search (E.cmp s.objs) o.data p 0 o.size
    let found ← if k < o.size then (o.data[k]?).map (fun x => decide (E.cmp s.objs p x = 0)) else some false
    if found then return (some (k + 1), s)
    if !add then return (Option.none, s.fail)
    if E.isMut s.objs p then return (Option.none, s.fail)
    let (ok, s) ← resize E s i (E.off (o.size + 2))
    if !ok then return (Option.none, s)
    let o ← s.lst i
    if o.size < k + 2 then Option.none
    else do
      let d ← mmove o.data (k + 2) k (o.size - k - 2)
      let d ← mset d k p
      return (some (k + 1), s.setl i { o with data := d })
  else
    let (so, e) := soff E p
    let s := if e then s.fail else s
    let k := if so < 0 then E.off ((o.size + (2 ^ (E.A.offBits) - E.off (-so).toNat))) else so.toNat
    if o.size ≤ k then return (Option.none, s.fail)
    return (some k, s)

/-- `snek_list_get`, snek-list.c:217-224. -/
def get (s : S) (i : Nat) (p : Val) : Option (Val × S) := do
  match ← ref E s i p false with
  | (Option.none, s) => return (Val.none, s)
  | (some k, s) =>
    let o ← s.lst i
    return (← o.data[k]?, s)

/-- `snek_list_del`, snek-list.c:226-250. -/
def del (s : S) (i : Nat) (p : Val) : Option S := do
  match ← ref E s i p true with
  | (Option.none, s) => return s
  | (some k, s) =>
    let o ← s.lst i
    match o.type with
    | .tuple => return s.fail
    | .list =>
      let d ← mmove o.data k (k + 1) (o.size - k - 1)
      return s.setl i { o with size := o.size - 1, data := d }
    | .dict =>
      let d ← mmove o.data (k - 1) (k + 1) (o.size - (k - 1) - 2)
      return s.setl i { o with size := o.size - 2, data := d }

/-- Store through the reference `snek_list_ref` returned: `*ref = value`. -/
def setSlot (s : S) (i k : Nat) (v : Val) : Option S := do
  let o ← s.lst i
  let d ← mset o.data k v
  return s.setl i { o with data := d }

/-- The dictionary loop of `snek_list_imm`, snek-list.c:286-295; pairs in source order. -/
def immLoop (s : S) (i : Nat) : List (Val × Val) → Option S
  | [] => some s
  | (k, v) :: l => do
    match ← ref E s i k true with
    | (Option.none, s) => immLoop s i l
    | (some p, s) => immLoop (← setSlot s i p v) i l

/-- Consecutive pairs of a list. -/
def pairs : List Val → List (Val × Val)
  | k :: v :: l => (k, v) :: pairs l
  | _ => []

/-- `snek_list_imm`, snek-list.c:273-304; `l`: the values on the stack in the order they were pushed. -/
def imm (s : S) (t : LType) (l : List Val) : Option (Val × S) := do
  match ← make E s (E.off l.length) t with
  | (Option.none, s) => return (Val.none, s)
  | (some i, s) =>
    if t = .dict then
      let o ← s.lst i
      let s ← immLoop E (s.setl i { o with size := 0 }) i (pairs l)
      return (.list i, s)
    else if l = [] then return (.list i, s)
    else return (.list i, ← poke s i 0 l)

/-- `snek_list_slice`, snek-list.c:320-338; `snek_list_make` is passed the truth value `readonly` as the type. -/
def listSlice (s : S) (i : Nat) (t : SliceT) : Option (Val × S) := do
  let o ← s.lst i
  if o.type.readonly && t.identity then return (.list i, s)
  match ← make E s t.count (if o.type.readonly then .tuple else .list) with
  | (Option.none, s) => return (Val.none, s)
  | (some n, s) =>
    let l ← sliceLoop E.A o.data t.count t.pos t.stride
    if l = [] then return (.list n, s) else return (.list n, ← poke s n 0 l)

/-! ## snek-string.c -/

/-- Allocate a string of these bytes. The request `length + 1` passes through a `snek_offset_t`; bytes are then written
regardless of what it became. -/
def newStr (s : S) (b : List UInt8) : Option (Val × S) :=
  let req := E.off (b.length + 1)
  let (ok, s) := s.ask req
  if !ok then some (Val.none, s)
  else if req < b.length + 1 then Option.none
  else some (.str s.objs.length, s.push (.str b))

/-- `snek_string_get`, snek-string.c:37-55. -/
def strGet (s : S) (i : Nat) (p : Val) : Option (Val × S) := do
  let b ← s.bytes i
  let (so, e) := soff E p
  let s := if e then s.fail else s
  let k := if so < 0 then E.off ((b.length + (2 ^ (E.A.offBits) - E.off (-so).toNat))) else so.toNat
  if b.length ≤ k then return (Val.none, s.fail)
  newStr E s [← (b ++ [0])[k]?]

/-- `snek_string_cat`, snek-string.c:57-79. -/
def strCat (s : S) (i j : Nat) : Option (Val × S) := do
  newStr E s ((← s.bytes i) ++ (← s.bytes j))

/-- `snek_string_times`, snek-string.c:99-113. -/
def strTimes (s : S) (i : Nat) (n : Nat) : Option (Val × S) := do
  newStr E s (List.replicate n (← s.bytes i)).flatten

/-- `snek_string_slice`, snek-string.c:81-97; the terminator can be read. -/
def strSlice (s : S) (i : Nat) (t : SliceT) : Option (Val × S) := do
  let b ← s.bytes i
  if t.identity then return (.str i, s)
  newStr E s (← sliceLoop E.A (b ++ [0]) t.count t.pos t.stride)

/-- `strstr` on terminated strings. -/
def strstr (b a : List UInt8) : Bool := a.isPrefixOf b || match b with | [] => false | _ :: b => strstr b a

/-! ## snek-exec.c -/

/-- A type error: `snek_error_type_1`/`_2` return NULL (snek-error.c). -/
def typeErr (s : S) : Option (Val × S) := some (Val.none, s.fail)

/-- `snek_list_to_poly` of a possibly null pointer, snek.h:965-970. -/
def optList : Option Nat → Val
  | some i => .list i
  | Option.none => Val.none

/-- `snek_binary` on `[]`, snek-exec.c:318-328. -/
def index (s : S) (a b : Val) : Option (Val × S) :=
  match a with
  | .list i => get E s i b
  | .str i => strGet E s i b
  | _ => typeErr s

/-- The multiplication case of `snek_binary` with the container first, snek-exec.c:443-463. -/
def arithTimes (s : S) (a : Val) (b : Val) : Option (Val × S) :=
  match b with
  | .num _ =>
    let n := (soff E b).1
    if n < 0 then some (Val.none, s)
    else match a with
      | .list i => do
        let o ← s.lst i
        if o.type = .dict then typeErr s
        else let (r, s) ← times E s i n; return (optList r, s)
      | .str i => strTimes E s i n.toNat
      | _ => typeErr s
  | _ => typeErr s

/-- `snek_binary` on the arithmetic operators, snek-exec.c:329-371 and 410-470. -/
def arith (op : BinOp) (inplace : Bool) (a b : Val) (s : S) : Option (Val × S) :=
  match a, b with
  | .num x, .num y =>
    match numBinary E.powf op x y with
    | .ok u => some (.num u, s)
    | .error => some (.num (E.any op x y), s.fail)
    | .undefined => some (.num (E.any op x y), s)
  | _, _ =>
    match op with
    | .plus =>
      match a, b with
      | .str i, .str j => strCat E s i j
      | .list i, .list j => do
        let x ← s.lst i
        let y ← s.lst j
        if x.type = y.type ∧ x.type ≠ .dict then
          let (r, s) ← if inplace && !x.type.readonly then append E s i j else plus E s i j
          return (optList r, s)
        else typeErr s
      | _, _ => typeErr s
    | .times =>
      match a with
      | .num _ => arithTimes E s b a
      | _ => arithTimes E s a b
    | .mod =>
      match a with
      | .str i => do
        match E.fmt s.objs (← s.bytes i) b with
        | some (some r) => newStr E s r
        | some Option.none => some (Val.none, s)
        | Option.none => typeErr s
      | _ => typeErr s
    | _ => typeErr s

/-- The search loop of `in`, snek-exec.c:390-396. -/
def inLoop (cmp : Val → Val → Int) (a : Val) (step : Nat) (h : 0 < step) (l : List Val) : Bool :=
  match l with
  | [] => false
  | x :: r => if cmp a x = 0 then true else inLoop cmp a step h ((x :: r).drop step)
termination_by l.length
decreasing_by simp only [List.length_drop, List.length_cons]; omega

/-- `snek_bool_to_poly`, snek.h: 1.0 or 0.0. -/
def ofBool (b : Bool) : Val := .num (if b then 0x3f800000 else 0)

/-- `snek_binary` on `in` (`pos = true`) and `not in`, snek-exec.c:329-334, 368-371 (two numbers: no case, the left operand is
the result) and 379-409. -/
def isIn (pos : Bool) (a b : Val) (s : S) : Option (Val × S) :=
  match a, b with
  | .num x, .num _ => some (.num (floatToPoly x), s)
  | _, .list j => do
    let o ← s.lst j
    let l ← mread o.data o.size
    let found := inLoop (E.cmp s.objs) a (if o.type = .dict then 2 else 1) (by split <;> omega) l
    return (ofBool (found == pos), s)
  | .str i, .str j => do
    return (ofBool (strstr (← s.bytes j) (← s.bytes i) == pos), s)
  | _, _ => typeErr s

/-- `snek_poly_len`, snek-poly.c:124-143. -/
def len (s : S) : Val → Option Nat
  | .str i => do return (← s.bytes i).length
  | .list i => do
    let o ← s.lst i
    return if o.type = .dict then o.size / 2 else o.size
  | _ => some 0

/-- An optional slice operand. -/
def sliceArg (d : Int) : Option Val → Int × Bool
  | Option.none => (d, false)
  | some v => soff E v

/-- `snek_slice`, snek-exec.c:482-573. `none` is also the result of signed overflow. A value without elements is returned
unchanged. -/
def slice (v : Val) (start stop stride : Option Val) (s : S) : Option (Val × S) := do
  let (t, e1) := sliceArg E 1 stride
  let (q, e2) := sliceArg E E.A.soffNone stop
  let (p, e3) := sliceArg E E.A.soffNone start
  let s := if e1 || e2 || e3 then s.fail else s
  let n ← len s v
  if t = 0 then return (v, s.fail)
  let c ← sliceCalc E.A n p q t
  match v with
  | .str i => strSlice E s i c
  | .list i => listSlice E s i c
  | _ => return (v, s)

/-- The reference of `snek_assign` to an element, snek-exec.c:617-637: `none` in the inner option: an error was raised. -/
def elemRef (s : S) (lp ip : Val) : Option (Option (Nat × Nat) × S) :=
  match lp with
  | .list i => do
    let o ← s.lst i
    if o.type.readonly then return (Option.none, s.fail)
    match ← ref E s i ip true with
    | (some k, s) => return (some (i, k), s)
    | (Option.none, s) => return (Option.none, s)
  | _ => some (Option.none, s.fail)

/-- `snek_assign` to an element, plain, snek-exec.c:614-641, 667. -/
def storeElem (lp ip v : Val) (s : S) : Option S := do
  match ← elemRef E s lp ip with
  | (Option.none, s) => return s
  | (some (i, k), s) => setSlot s i k v

/-- List `i` has another size in the second state. -/
def resized (s s' : S) (i : Nat) : Bool := (s.lst i).map (·.size) ≠ (s'.lst i).map (·.size)

/-- `snek_assign` to an element, augmented, snek-exec.c:596-667: the reference is computed, the old value combined with the
operand, the reference computed again from list and index, which `snek_stackp += 2` brings back. If the first search inserted the key,
it had pushed it on the stack over the popped list (snek-list.c:183-185): the second round then finds the key in the place of the list,
and as no key is a list that can be changed, that is a type error. -/
def augElem (op : BinOp) (lp ip v : Val) (s : S) : Option S := do
  match ← elemRef E s lp ip with
  | (Option.none, s) => return s
  | (some (i, k), s1) =>
    let o ← s1.lst i
    let old ← o.data[k]?
    let (r, s2) ← arith E op true old v s1
    if resized s s1 i then return s2.fail else storeElem E lp ip r s2

/-- `snek_op_del` on an element, snek-exec.c:930-939. -/
def delElem (lp ip : Val) (s : S) : Option S :=
  match lp with
  | .list i => del E s i ip
  | _ => some s.fail

/-- The container operations a program can perform. -/
inductive Op
  | arith (op : BinOp) (inplace : Bool) (a b : Val)
  | index (a b : Val)
  | isIn (pos : Bool) (a b : Val)
  | slice (v : Val) (start stop stride : Option Val)
  | build (t : LType) (l : List Val)
  | store (l i v : Val)
  | aug (op : BinOp) (l i v : Val)
  | del (l i : Val)

/-- Effect of one operation. An error stops the program; the next command starts with the flag cleared (snek-parse.c). -/
def step (op : Op) (s : S) : Option S :=
  match op with
  | .arith op ip a b => (arith E op ip a b s).map (·.2)
  | .index a b => (index E s a b).map (·.2)
  | .isIn p a b => (isIn E p a b s).map (·.2)
  | .slice v a b c => (slice E v a b c s).map (·.2)
  | .build t l => (imm E s t l).map (·.2)
  | .store l i v => storeElem E l i v s
  | .aug op l i v => augElem E op l i v s
  | .del l i => delElem E l i s

/-- Any sequence of operations. -/
def runOps : List Op → S → Option S
  | [], s => some s
  | op :: ops, s => (step E op s).bind (runOps ops)

end Snek.Store
