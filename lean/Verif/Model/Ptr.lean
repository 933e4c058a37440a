import Verif.Model.HeapCmp
/-!
# Container operations with addresses and a collector that moves things

Models snek-list.c, the string functions of snek-string.c that make strings, and the container cases of `snek_binary`, `snek_slice` and
`snek_assign` once more, statement by statement: with pointers that are addresses in the pool, with the value stack on which the code
saves pointers while it allocates (popped slots keep their content until they are overwritten), and with an allocator that may
collect at every call. The collector (`Coll`) is any that satisfies `Coll.Good`: what can be reached from the roots is moved
consistently, anything else, in particular a pointer in a local variable, is left behind. The result `none` is a pointer that does
not point at what the code takes it for. `Model/Store` is the same code without addresses.

Simplifications: strings are all in the pool; a function value is its number; an object is one cell of the address space.
-/
namespace Snek.Ptr
open Store (Val S Obj LObj Env mcpy mread mmove mset listAlloc soff optList ofBool inLoop strstr sliceArg)

/-- The object a value refers to. -/
def addr : Val → Option Nat
  | .str a => some a
  | .list a => some a
  | _ => none

/-- `snek_poly_move`, snek-memory.c:682-712: the same value at its new address. -/
def ren (f : Nat → Nat) : Val → Val
  | .str a => .str (f a)
  | .list a => .list (f a)
  | v => v

/-- `snek_list_t`, snek.h:210-215. -/
structure Head where
  type : LType
  size : Nat
  alloc : Nat
  data : Nat
  deriving DecidableEq, Repr

/-- A block of the pool. -/
inductive Blk
  | str (b : List UInt8)
  | head (h : Head)
  | words (l : List Val)
  deriving DecidableEq, Repr

/-- The pool, `snek_stack` below and above `snek_stackp` (nearest slot first), `snek_a`, the other roots (variables, constants),
`snek_empty_tuple`; the allocator's answers as in `Store.S`; `snek_abort`. `n` counts the objects made; it only bounds recursion. -/
structure P where
  blk : Nat → Option Blk
  stack : List Val
  above : List Val
  acc : Val
  ext : List Val
  empty : Option Nat
  mem : Nat → Nat → Bool
  clock : Nat
  abort : Bool
  cap : Nat
  n : Nat

/-- The roots of the collector, snek-memory.c:58-150. -/
def P.roots (p : P) : List Val := p.stack ++ p.acc :: p.ext ++ p.empty.toList.map .list

/-- Header at an address. -/
def P.hd (p : P) (a : Nat) : Option Head :=
  match p.blk a with
  | some (.head h) => some h
  | _ => none

/-- `snek_list_data`, snek-list.c:23-27, and what is there. -/
def P.wds (p : P) (h : Head) : Option (List Val) :=
  if h.alloc = 0 then some [] else
  match p.blk h.data with
  | some (.words l) => some l
  | _ => none

/-- String at an address. -/
def P.chars (p : P) (a : Nat) : Option (List UInt8) :=
  match p.blk a with
  | some (.str b) => some b
  | _ => none

/-- Write a block. -/
def P.put (p : P) (a : Nat) (b : Blk) : P := { p with blk := fun x => if x = a then some b else p.blk x }

/-- Raise an error. -/
def P.fail (p : P) : P := { p with abort := true }

/-- `snek_stack_push`, snek-exec.c:29-37: nothing is pushed when the stack is full. -/
def P.push (p : P) (v : Val) : P :=
  if p.stack.length = p.cap then p.fail else { p with stack := v :: p.stack, above := p.above.drop 1 }

/-- `snek_stack_pop`, snek-exec.c:42-50. -/
def P.pop (p : P) : Option (Val × P) :=
  match p.stack with
  | [] => none
  | v :: l => some (v, { p with stack := l, above := v :: p.above })

/-- `snek_stack_pop_list`, snek-list.c:346-350: the word is taken for a list. -/
def P.popList (p : P) : Option (Nat × P) :=
  match p.pop with
  | some (.list a, p) => some (a, p)
  | _ => none

/-- `snek_stack_pop_string`, snek-string.c. -/
def P.popStr (p : P) : Option (Nat × P) :=
  match p.pop with
  | some (.str a, p) => some (a, p)
  | _ => none

/-- What can be reached. The words of a list after `size` are not looked at (snek-list.c:360-371). -/
inductive P.Reach (p : P) : Nat → Prop
  | root {v : Val} {a : Nat} : v ∈ p.roots → addr v = some a → p.Reach a
  | elem {a b m : Nat} {h : Head} {l : List Val} {v : Val} : p.Reach a → p.hd a = some h → p.wds h = some l → m < h.size →
      l[m]? = some v → addr v = some b → p.Reach b

/-- The addresses in use: reachable objects and the storage of reachable lists. -/
def P.Used (p : P) (a : Nat) : Prop :=
  p.Reach a ∨ ∃ b h, p.Reach b ∧ p.hd b = some h ∧ h.alloc ≠ 0 ∧ h.data = a

/-- What a collection may do to the pool (C14): every block in use moves to a new address of its own, references from roots and from
the elements of lists follow; words after the elements of a list, unused blocks, and the stack above the stack pointer can be anything. -/
structure Moved (ρ : Nat → Nat) (p p' : P) : Prop where
  stack : p'.stack = p.stack.map (ren ρ)
  acc : p'.acc = ren ρ p.acc
  ext : p'.ext = p.ext.map (ren ρ)
  empty : p'.empty = p.empty.map ρ
  rest : p'.mem = p.mem ∧ p'.clock = p.clock ∧ p'.abort = p.abort ∧ p'.cap = p.cap ∧ p'.n = p.n
  inj : ∀ a b, p.Used a → p.Used b → ρ a = ρ b → a = b
  str : ∀ a b, p.Reach a → p.blk a = some (.str b) → p'.blk (ρ a) = some (.str b)
  head : ∀ a h, p.Reach a → p.hd a = some h →
    ∃ d, p'.hd (ρ a) = some { h with data := d } ∧ (h.alloc ≠ 0 → d = ρ h.data)
  words : ∀ a h l, p.Reach a → p.hd a = some h → h.alloc ≠ 0 → p.wds h = some l →
    ∃ l', p'.blk (ρ h.data) = some (.words l') ∧ l'.length = l.length ∧ ∀ m, m < h.size → l'[m]? = (l[m]?).map (ren ρ)

/-- A collector and an allocator: the pool after a collection, and an address for the new block. -/
structure Coll where
  move : P → P
  fresh : P → Nat

/-- It keeps what is in use, and gives out what is not. -/
def Coll.Good (K : Coll) : Prop :=
  (∀ p, ∃ ρ, Moved ρ p (K.move p)) ∧ ∀ p, ¬(K.move p).Used (K.fresh (K.move p))

/-- `snek_alloc`, snek-memory.c:714-732: may collect; a refused request raises an error. -/
def alloc (K : Coll) (p : P) (bytes : Nat) (b : Blk) : Option Nat × P :=
  let ok := p.mem p.clock bytes
  let p := K.move { p with clock := p.clock + 1, abort := p.abort || !ok }
  if ok then (some (K.fresh p), p.put (K.fresh p) b) else (none, p)

/-! ## Comparison, snek-poly.c:78-107, snek-list.c:143-157, 252-271: no allocation -/

/-- `snek_poly_cmp(a, b, false)`. -/
def pcmp (p : P) : Nat → Val → Val → Option Int
  | 0, _, _ => none
  | n + 1, a, b =>
    match a, b with
    | .num a, .num b => some (numCmp a b)
    | .str i, .str j =>
      match p.chars i, p.chars j with
      | some a, some b => some (sgn (strcmp a b))
      | _, _ => none
    | .list i, .list j =>
      match p.hd i, p.hd j with
      | some a, some b =>
        if a.type.num - b.type.num ≠ 0 then some (a.type.num - b.type.num)
        else match p.wds a, p.wds b with
          | some x, some y => Store.hcmpLoop (pcmp p n) (x.take a.size) (y.take b.size)
          | _, _ => none
      | _, _ => none
    | .func a, .func b => some (natCmp a b)
    | .builtin a, .builtin b => some (natCmp a b)
    | a, b => some ((a.type.num : Int) - b.type.num)

/-- `snek_mutable`. -/
def pmut (p : P) : Nat → Val → Option Bool
  | 0, _ => none
  | n + 1, .list i =>
    match p.hd i with
    | some a =>
      if a.type.readonly then
        match p.wds a with
        | some x => Store.hmutLoop (pmut p n) (x.take a.size)
        | none => none
      else some true
    | none => none
  | _ + 1, _ => some false

/-- A comparison that does not return has no result (0 stands for it, as in `Env.real`). -/
def P.cmp (p : P) (a b : Val) : Int := (pcmp p (p.n + 1) a b).getD 0
def P.isMut (p : P) (a : Val) : Bool := (pmut p (p.n + 1) a).getD true

/-! ## snek-list.c -/

variable (K : Coll) (E : Env)

/-- `snek_list_resize`, snek-list.c:29-52. -/
def resize (p : P) (list size : Nat) : Option (Option Nat × P) := do
  let h ← p.hd list
  if size ≤ h.alloc then return (some list, p.put list (.head { h with size := size }))
  let alloc := if h.type.readonly then size else listAlloc E size
  let bytes := E.off (alloc * 4)
  let p := p.push (.list list)
  let (data, p) := Ptr.alloc K p bytes (.words (List.replicate (bytes / 4) Val.zero))
  let (list, p) ← p.popList
  match data with
  | none => return (none, p)
  | some data =>
    let h ← p.hd list
    let old ← mread (← p.wds h) (min size h.size)
    let new ← mcpy (List.replicate (bytes / 4) Val.zero) 0 old
    let p := p.put data (.words new)
    return (some list, p.put list (.head { h with size := size, alloc := alloc, data := data }))

/-- `snek_list_head_alloc`, snek-list.c:56-63. -/
def headAlloc (p : P) (t : LType) : Option Nat × P :=
  let (r, p) := alloc K p (E.A.offBits / 2) (.head ⟨t, 0, 0, 0⟩)
  (r, if r.isSome then { p with n := p.n + 1 } else p)

/-- `snek_list_make`, snek-list.c:65-78. -/
def make (p : P) (size : Nat) (t : LType) : Option (Option Nat × P) :=
  if size = 0 ∧ t = .tuple then
    match p.empty with
    | some a => some (some a, p)
    | none =>
      let (r, p) := headAlloc K E p t
      some (r, { p with empty := r })
  else
    match headAlloc K E p t with
    | (none, p) => some (none, p)
    | (some a, p) => resize K E p a size

/-- `memcpy` of `src` to position `k` of the storage of list `a`. -/
def poke (p : P) (a k : Nat) (src : List Val) : Option P := do
  let h ← p.hd a
  let d ← mcpy (← p.wds h) k src
  if h.alloc = 0 then return p else return p.put h.data (.words d)

/-- The words a `memcpy` of `n` words from list `a` reads. -/
def peek (p : P) (a n : Nat) : Option (List Val) := do
  let h ← p.hd a
  mread (← p.wds h) n

/-- `snek_list_append`, snek-list.c:80-102. -/
def append (p : P) (list app : Nat) : Option (Option Nat × P) := do
  let h ← p.hd list
  let g ← p.hd app
  let same := app == list
  let p := if same then p else p.push (.list app)
  let (r, p) ← resize K E p list (E.off (h.size + g.size))
  if same then
    match r with
    | none => return (none, p)
    | some list =>
      let src ← peek p list g.size
      return (some list, ← poke p list h.size src)
  else
    let (app, p) ← p.popList
    match r with
    | none => return (none, p)
    | some list =>
      let src ← peek p app g.size
      return (some list, ← poke p list h.size src)

/-- `snek_list_plus`, snek-list.c:104-120. -/
def plus (p : P) (a b : Nat) : Option (Option Nat × P) := do
  let p := p.push (.list a)
  let p := p.push (.list b)
  let h ← p.hd a
  let g ← p.hd b
  let (n, p) ← make K E p (E.off (h.size + g.size)) h.type
  let (b, p) ← p.popList
  let (a, p) ← p.popList
  match n with
  | none => return (none, p)
  | some n =>
    let h ← p.hd a
    let g ← p.hd b
    let p ← poke p n 0 (← peek p a h.size)
    let p ← poke p n h.size (← peek p b g.size)
    return (some n, p)

/-- The loop of `snek_list_times`, snek-list.c:135-138. -/
def timesLoop (p : P) (n k : Nat) (src : List Val) : Nat → Option P
  | 0 => some p
  | c + 1 => do
    let p ← poke p n k src
    timesLoop p n (k + src.length) src c

/-- `snek_list_times`, snek-list.c:122-140. -/
def times (p : P) (a : Nat) (count : Int) : Option (Option Nat × P) := do
  let count := if count < 0 then 0 else count.toNat
  let p := p.push (.list a)
  let h ← p.hd a
  let (n, p) ← make K E p (E.off (h.size * count)) h.type
  let (a, p) ← p.popList
  match n with
  | none => return (none, p)
  | some n =>
    if count = 0 then return (some n, p)
    let src ← peek p a h.size
    return (some n, ← timesLoop p n 0 src count)

/-- `_snek_list_ref`, snek-list.c:160-209: the list as the function ends up with it, and the position in its storage. -/
def ref (p : P) (list : Nat) (x : Val) (add : Bool) : Option (Option (Nat × Nat) × P) := do
  let h ← p.hd list
  let data ← p.wds h
  if h.type = .dict then
    let k ← Dict.search p.cmp data x 0 h.size
    let found ← if k < h.size then (data[k]?).map (fun y => decide (p.cmp x y = 0)) else some false
    if found then return (some (list, k + 1), p)
    if !add then return (none, p.fail)
    if p.isMut x then return (none, p.fail)
    let p := p.push x
    let (r, p) ← resize K E p list (E.off (h.size + 2))
    let (x, p) ← p.pop
    match r with
    | none => return (none, p)
    | some list =>
      let h ← p.hd list
      let data ← p.wds h
      if h.size < k + 2 then none
      else do
        let d ← mmove data (k + 2) k (h.size - k - 2)
        let d ← mset d k x
        return (some (list, k + 1), p.put h.data (.words d))
  else
    let (so, e) := soff E x
    let p := if e then p.fail else p
    let k := if so < 0 then E.off ((h.size + (2 ^ (E.A.offBits) - E.off (-so).toNat))) else so.toNat
    if h.size ≤ k then return (none, p.fail)
    return (some (list, k), p)

/-- `snek_list_get`, snek-list.c:217-224. -/
def get (p : P) (list : Nat) (x : Val) : Option (Val × P) := do
  match ← ref K E p list x false with
  | (none, p) => return (Val.none, p)
  | (some (list, k), p) =>
    let h ← p.hd list
    return (← (← p.wds h)[k]?, p)

/-- `snek_list_del`, snek-list.c:226-250: `list` is the pointer from before the call of `snek_list_ref`, while the reference points into
the storage as it is after it (`at`). The difference `remain` makes sense only if both are the same storage. -/
def del (p : P) (list : Nat) (x : Val) : Option P := do
  match ← ref K E p list x true with
  | (none, p) => return p
  | (some (at_, k), p) =>
    let h ← p.hd list
    let g ← p.hd at_
    if h.type = .tuple then return p.fail
    if h.data ≠ g.data then none
    else do
      let data ← p.wds h
      match h.type with
      | .tuple => return p.fail
      | .list =>
        let d ← mmove data k (k + 1) (h.size - k - 1)
        return (p.put h.data (.words d)).put list (.head { h with size := h.size - 1 })
      | .dict =>
        let d ← mmove data (k - 1) (k + 1) (h.size - (k - 1) - 2)
        return (p.put h.data (.words d)).put list (.head { h with size := h.size - 2 })

/-- `*ref = v`. -/
def setSlot (p : P) (list k : Nat) (v : Val) : Option P := do
  let h ← p.hd list
  let d ← mset (← p.wds h) k v
  return p.put h.data (.words d)

/-- The dictionary loop of `snek_list_imm`, snek-list.c:286-295: `s` counts down, keys and values are picked from the stack. `list` is
not computed again. -/
def immLoop (p : P) (list : Nat) : Nat → Option P
  | 0 => some p
  | c + 1 => do
    let key ← p.stack[2 * c + 1]?
    let value ← p.stack[2 * c]?
    match ← ref K E p list key true with
    | (none, p) => immLoop p list c
    | (some (at_, k), p) => immLoop (← setSlot p at_ k value) list c

/-- `snek_stack_drop`, snek-exec.c:70-78. -/
def P.drop (p : P) : Nat → Option P
  | 0 => some p
  | n + 1 => do
    let (_, p) ← p.pop
    p.drop n

/-- `snek_list_imm`, snek-list.c:273-304. -/
def imm (p : P) (size : Nat) (t : LType) : Option (Val × P) := do
  match ← make K E p (E.off size) t with
  | (none, p) => return (Val.none, ← p.drop size)
  | (some list, p) =>
    if t = .dict then
      let h ← p.hd list
      let p ← immLoop K E (p.put list (.head { h with size := 0 })) list (size / 2)
      return (.list list, ← p.drop size)
    else if size = 0 then return (.list list, p)
    else
      if size ≤ p.stack.length then
        let l := (p.stack.take size).reverse
        let p ← p.drop size
        return (.list list, ← poke p list 0 l)
      else none

/-- `snek_list_slice`, snek-list.c:320-338. -/
def listSlice (p : P) (list : Nat) (t : SliceT) : Option (Val × P) := do
  let h ← p.hd list
  if h.type.readonly && t.identity then return (.list list, p)
  let p := p.push (.list list)
  let (n, p) ← make K E p t.count (if h.type.readonly then .tuple else .list)
  let (list, p) ← p.popList
  match n with
  | none => return (Val.none, p)
  | some n =>
    let h ← p.hd list
    let l ← sliceLoop E.A (← p.wds h) t.count t.pos t.stride
    if l = [] then return (.list n, p) else return (.list n, ← poke p n 0 l)

/-! ## snek-string.c -/

/-- `snek_alloc(len + 1)` for a string; its content is written by the caller. -/
def strAlloc (p : P) (len : Nat) : Option Nat × P :=
  let (r, p) := alloc K p (E.off (len + 1)) (.str [])
  (r, if r.isSome then { p with n := p.n + 1 } else p)

/-- Write a string into a block that was requested for `len` characters; the request passed through a `snek_offset_t`. -/
def strFill (p : P) (a : Nat) (b : List UInt8) : Option (Val × P) :=
  if E.off (b.length + 1) < b.length + 1 then none else some (.str a, p.put a (.str b))

/-- `snek_string_get`, snek-string.c:37-55; the character is read before `snek_string_make` (17-23) allocates. -/
def strGet (p : P) (a : Nat) (x : Val) : Option (Val × P) := do
  let b ← p.chars a
  let (so, e) := soff E x
  let p := if e then p.fail else p
  let k := if so < 0 then E.off ((b.length + (2 ^ (E.A.offBits) - E.off (-so).toNat))) else so.toNat
  if b.length ≤ k then return (Val.none, p.fail)
  let c ← (b ++ [0])[k]?
  match strAlloc K E p 1 with
  | (none, p) => return (Val.none, p)
  | (some r, p) => strFill E p r [c]

/-- `snek_string_cat` with `snek_string_catn`, snek-string.c:57-79. -/
def strCat (p : P) (a b : Nat) : Option (Val × P) := do
  let alen := (← p.chars a).length
  let blen := (← p.chars b).length
  let p := p.push (.str a)
  let p := p.push (.str b)
  let (r, p) := strAlloc K E p (alen + blen)
  let (b, p) ← p.popStr
  let (a, p) ← p.popStr
  match r with
  | none => return (Val.none, p)
  | some r => strFill E p r ((← p.chars a).take alen ++ (← p.chars b).take blen)

/-- `snek_string_slice`, snek-string.c:81-97. -/
def strSlice (p : P) (a : Nat) (t : SliceT) : Option (Val × P) := do
  let _ ← p.chars a
  if t.identity then return (.str a, p)
  let p := p.push (.str a)
  let (r, p) := strAlloc K E p t.count
  let (a, p) ← p.popStr
  match r with
  | none => return (Val.none, p)
  | some r => strFill E p r (← sliceLoop E.A ((← p.chars a) ++ [0]) t.count t.pos t.stride)

/-- `snek_string_times`, snek-string.c:99-113: `a` is not saved while the new string is allocated. -/
def strTimes (p : P) (a : Nat) (n : Nat) : Option (Val × P) := do
  let alen := (← p.chars a).length
  match strAlloc K E p (alen * n) with
  | (none, p) => return (Val.none, p)
  | (some r, p) => strFill E p r (List.replicate n ((← p.chars a).take alen)).flatten

/-! ## snek-exec.c -/

/-- A type error. -/
def typeErr (p : P) : Option (Val × P) := some (Val.none, p.fail)

/-- `snek_binary` on `[]`, snek-exec.c:318-328. -/
def index (p : P) (a b : Val) : Option (Val × P) :=
  match a with
  | .list i => get K E p i b
  | .str i => strGet K E p i b
  | _ => typeErr p

/-- The multiplication case of `snek_binary`, snek-exec.c:443-463. -/
def arithTimes (p : P) (a b : Val) : Option (Val × P) :=
  match b with
  | .num _ =>
    let n := (soff E b).1
    if n < 0 then some (Val.none, p)
    else match a with
      | .list i => do
        let h ← p.hd i
        if h.type = .dict then typeErr p
        else let (r, p) ← times K E p i n; return (optList r, p)
      | .str i => strTimes K E p i n.toNat
      | _ => typeErr p
  | _ => typeErr p

/-- `snek_binary` on the arithmetic operators, snek-exec.c:329-371 and 410-470, without `%` on strings. -/
def arith (op : BinOp) (inplace : Bool) (a b : Val) (p : P) : Option (Val × P) :=
  match a, b with
  | .num x, .num y =>
    match numBinary E.powf op x y with
    | .ok u => some (.num u, p)
    | .error => some (.num (E.any op x y), p.fail)
    | .undefined => some (.num (E.any op x y), p)
  | _, _ =>
    match op with
    | .plus =>
      match a, b with
      | .str i, .str j => strCat K E p i j
      | .list i, .list j => do
        let x ← p.hd i
        let y ← p.hd j
        if x.type = y.type ∧ x.type ≠ .dict then
          let (r, p) ← if inplace && !x.type.readonly then append K E p i j else plus K E p i j
          return (optList r, p)
        else typeErr p
      | _, _ => typeErr p
    | .times =>
      match a with
      | .num _ => arithTimes K E p b a
      | _ => arithTimes K E p a b
    | .mod =>
      match a with
      | .str _ => none
      | _ => typeErr p
    | _ => typeErr p

/-- `snek_binary` on `in` and `not in`, snek-exec.c:329-334, 368-371, 379-409. -/
def isIn (pos : Bool) (a b : Val) (p : P) : Option (Val × P) :=
  match a, b with
  | .num x, .num _ => some (.num (floatToPoly x), p)
  | _, .list j => do
    let h ← p.hd j
    let l ← mread (← p.wds h) h.size
    let found := inLoop p.cmp a (if h.type = .dict then 2 else 1) (by split <;> omega) l
    return (ofBool (found == pos), p)
  | .str i, .str j => do
    return (ofBool (strstr (← p.chars j) (← p.chars i) == pos), p)
  | _, _ => typeErr p

/-- `snek_poly_len`, snek-poly.c:124-143. -/
def len (p : P) : Val → Option Nat
  | .str i => do return (← p.chars i).length
  | .list i => do
    let h ← p.hd i
    return if h.type = .dict then h.size / 2 else h.size
  | _ => some 0

/-- `snek_slice`, snek-exec.c:482-573; `snek_a` is the container. -/
def slice (v : Val) (start stop stride : Option Val) (p : P) : Option (Val × P) := do
  let (t, e1) := sliceArg E 1 stride
  let (q, e2) := sliceArg E E.A.soffNone stop
  let (s, e3) := sliceArg E E.A.soffNone start
  let p := if e1 || e2 || e3 then p.fail else p
  let n ← len p v
  if t = 0 then return (v, p.fail)
  let c ← sliceCalc E.A n s q t
  match v with
  | .str i => strSlice K E p i c
  | .list i => listSlice K E p i c
  | _ => return (v, p)

/-- The element branch of `snek_assign` up to the reference, snek-exec.c:614-637: index and list are popped. -/
def elemRef (p : P) : Option (Option (Nat × Nat) × P) := do
  let (ip, p) ← p.pop
  let (lp, p) ← p.pop
  match lp with
  | .list i =>
    let h ← p.hd i
    if h.type.readonly then return (none, p.fail)
    ref K E p i ip true
  | _ => return (none, p.fail)

/-- `snek_assign` to an element, plain, snek-exec.c:614-641, 667: the value is read from `snek_a` at the end. -/
def storeElem (p : P) : Option P := do
  match ← elemRef K E p with
  | (none, p) => return p
  | (some (list, k), p) => setSlot p list k p.acc

/-- `snek_stackp += 2`, snek-exec.c:646-650: whatever is in those two slots. -/
def P.unpop2 (p : P) : Option P :=
  match p.above with
  | x :: y :: l => some { p with stack := y :: x :: p.stack, above := l }
  | _ => none

/-- `snek_assign` to an element, augmented, snek-exec.c:596-667. -/
def augElem (op : BinOp) (p : P) : Option P := do
  match ← elemRef K E p with
  | (none, p) => return p
  | (some (list, k), p) =>
    let h ← p.hd list
    let old ← (← p.wds h)[k]?
    let p ← p.unpop2
    let (r, p) ← arith K E op true old p.acc p
    storeElem K E { p with acc := r }

/-- `snek_op_del` on an element, snek-exec.c:930-939: the list is popped, the index is `snek_a`. -/
def delElem (p : P) : Option P := do
  let (lp, p) ← p.pop
  match lp with
  | .list i => del K E p i p.acc
  | _ => return p.fail

/-! ## Sequences of operations -/

/-- The operations of the machine on values: operands on the stack and in the accumulator. -/
inductive Op
  /-- `snek_stack_push(snek_a)` -/
  | push
  /-- load a number or builtin -/
  | const (v : Val)
  /-- read and write another root, for example a variable -/
  | load (k : Nat)
  | save (k : Nat)
  /-- a new string -/
  | lit (b : List UInt8)
  | arith (op : BinOp)
  | index
  | isIn (pos : Bool)
  | slice (start stop stride : Bool)
  | build (t : LType) (n : Nat)
  | store
  | aug (op : BinOp)
  | del

/-- A result to the accumulator. -/
def P.res : Val × P → P | (v, p) => { p with acc := v }

/-- Pop an optional operand. -/
def P.popIf (p : P) (b : Bool) : Option (Option Val × P) :=
  if b then do let (v, p) ← p.pop; return (some v, p) else some (none, p)

/-- One operation, snek-exec.c:760-939. -/
def step (op : Op) (p : P) : Option P :=
  match op with
  | .push => some (p.push p.acc)
  | .const v => some { p with acc := v }
  | .load k => do return { p with acc := ← p.ext[k]? }
  | .save k => if k < p.ext.length then some { p with ext := p.ext.set k p.acc } else none
  | .lit b =>
    match strAlloc K E p b.length with
    | (none, p) => some { p with acc := Val.none }
    | (some r, p) => (strFill E p r b).map P.res
  | .arith op => do let (a, p) ← p.pop; return P.res (← arith K E op false a p.acc p)
  | .index => do let (a, p) ← p.pop; return P.res (← index K E p a p.acc)
  | .isIn pos => do let (a, p) ← p.pop; return P.res (← isIn pos a p.acc p)
  | .slice start stop stride => do
    let (t, p) ← p.popIf stride
    let (q, p) ← p.popIf stop
    let (s, p) ← p.popIf start
    let (v, p) ← p.pop
    return P.res (← slice K E v s q t { p with acc := v })
  | .build t n => do return P.res (← imm K E p n t)
  | .store => storeElem K E p
  | .aug op => augElem K E op p
  | .del => delElem K E p

/-- Operations until one raises an error. -/
def run : List Op → P → Option P
  | [], p => some p
  | op :: ops, p => if p.abort then some p else (step K E op p).bind (run ops)

end Snek.Ptr
