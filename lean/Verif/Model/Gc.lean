/-
Model of the memory manager, /repo/snek-memory.c.

The pool is a typed object store: a heap maps the offset of an object to the
object.  An object is anything that has a size in bytes, a list of outgoing
references in the order in which its mark/move callbacks visit them, and a way
to rewrite those references (`HeapObj`).  `Verif/Model/HeapObj.lean` gives the
actual snek objects.  Simplification: objects are moved as a whole, so the
bytes of one object are not modelled here; but writing an object over a range
of the pool destroys every other object that overlaps this range.
-/
namespace Snek.Gc

/-- What the collector needs to know about an object: `size` is
`snek_size(mem, addr)` (snek-memory.c:190-194), `ptrs` the offsets its `mark`
callback follows, in order, and `rename` the effect of its `move` callback
(snek.h:189-193, the `snek_mem` vtable). -/
class HeapObj (β : Type) where
  size : β → Nat
  ptrs : β → List Nat
  rename : (Nat → Nat) → β → β

open HeapObj

/-- The pool seen as an object store (snek-memory.c:18-23). -/
abbrev Heap (β : Type) := Nat → Option β

/-- One entry of `snek_chunk` (snek-memory.c:79-85).  `val` is the anonymous
union: the size while marking, the new offset while moving. -/
structure Chunk where
  old : Nat
  val : Nat
deriving Repr, DecidableEq

/-- `find_chunk` (snek-memory.c:207-223): binary search of the entries
`l ≤ i < r` for the first one whose old offset is not below `offset`. -/
def findChunk (tab : List Chunk) (offset : Nat) (l r : Nat) : Nat :=
  if l < r then
    let m := (l + r) / 2
    if (tab.getD m ⟨0, 0⟩).old < offset then findChunk tab offset (m + 1) r
    else findChunk tab offset l m
  else l
termination_by r - l
decreasing_by all_goals omega

/-- The chunk table while marking.  `tab` holds the entries below `chunk_last`,
so `chunk_last` is `tab.length`; `chunk_first` is 0 while marking
(snek-memory.c:204-205, 273-279). -/
structure Tab where
  tab : List Chunk
  high : Nat
deriving Repr

/-- `note_chunk` (snek-memory.c:225-271).  `n` is `SNEK_NCHUNK`.  The `memmove`
of the entries above the insertion point, limited to the array, followed by the
store of the new entry is: split at the insertion point, put the entry in
between, and keep at most `n` entries. -/
def noteChunk (n low : Nat) (t : Tab) (offset size : Nat) : Tab :=
  if offset < low ∨ t.high ≤ offset then t
  else
    let c := findChunk t.tab offset 0 t.tab.length
    let tab := (t.tab.take c ++ ⟨offset, size⟩ :: t.tab.drop c).take n
    let high := if tab.length = n then
        (tab.getD (n - 1) ⟨0, 0⟩).old + (tab.getD (n - 1) ⟨0, 0⟩).val
      else t.high
    ⟨tab, high⟩

/-- Set one busy bit, `mark` (snek-memory.c:168-171).  The bitmap has one bit per
`SNEK_ALLOC_ROUND` bytes; the model has one per offset, which is the same for the
aligned offsets the pool hands out. -/
def setBusy (busy : Nat → Bool) (o : Nat) : Nat → Bool :=
  fun x => if x = o then true else busy x

/-- Number of offsets of the pool whose busy bit is clear (used only to show
that the walks stop). -/
def unmarked (pool : Nat) (busy : Nat → Bool) : Nat :=
  ((List.range pool).filter (fun o => !busy o)).length

theorem filter_len_le {α} (p q : α → Bool) (l : List α)
    (h : ∀ x ∈ l, q x = true → p x = true) :
    (l.filter q).length ≤ (l.filter p).length := by
  induction l with
  | nil => simp
  | cons a l ih =>
    have ih := ih (fun x hx => h x (List.mem_cons_of_mem _ hx))
    have ha := h a (List.mem_cons_self ..)
    by_cases hq : q a = true
    · have hp := ha hq
      simp [hq, hp]; exact ih
    · by_cases hp : p a = true
      · simp [hq, hp]; omega
      · simp [hq, hp]; exact ih

theorem filter_len_lt {α} (p q : α → Bool) (l : List α)
    (h : ∀ x ∈ l, q x = true → p x = true)
    (a : α) (ha : a ∈ l) (hpa : p a = true) (hqa : q a = false) :
    (l.filter q).length < (l.filter p).length := by
  induction l with
  | nil => simp at ha
  | cons b l ih =>
    have hl : ∀ x ∈ l, q x = true → p x = true := fun x hx => h x (List.mem_cons_of_mem _ hx)
    have hle := filter_len_le p q l hl
    rcases List.mem_cons.1 ha with rfl | hm
    · simp [hpa, hqa]; omega
    · have ih := ih hl hm
      have hb := h b (List.mem_cons_self ..)
      by_cases hq : q b = true
      · have hp := hb hq
        simp [hq, hp]; exact ih
      · by_cases hp : p b = true
        · simp [hq, hp]; omega
        · simp [hq, hp]; exact ih

theorem unmarked_lt {pool : Nat} {busy : Nat → Bool} {o : Nat}
    (ho : o < pool) (hb : busy o = false) :
    unmarked pool (setBusy busy o) < unmarked pool busy := by
  unfold unmarked
  apply filter_len_lt _ _ _ _ o (List.mem_range.2 ho) (by simp [hb]) (by simp [setBusy])
  intro x _ hx
  by_cases h : x = o <;> simp_all [setBusy]

variable {β : Type} [HeapObj β]

/-- State of a mark walk: busy bitmap and chunk table. -/
structure MarkSt where
  busy : Nat → Bool
  tab : Tab

/-- The mark walk: `walk(snek_mark_ref, snek_poly_mark_ref)` (snek-memory.c:285-321),
`snek_mark_blob`, `snek_mark_block_addr`, `snek_mark_addr`, `snek_mark_offset`,
`snek_poly_mark` (468-601) and the `mark` callbacks.  Objects are visited in the
same depth first order as by the C recursion, with the pending references held
in a list instead of on the C stack.  `none` is a reference that leaves the
pool or names no object, which in C reads unrelated memory.  Revisiting the
lists noted by `note_list` is left out: all of them are already busy, so each
revisit returns at once. -/
def markWalk (n pool low : Nat) (h : Heap β) (s : MarkSt) : List Nat → Option MarkSt
  | [] => some s
  | o :: w =>
    if _hb : s.busy o = true then markWalk n pool low h s w
    else if _ho : o < pool then
      match h o with
      | none => none
      | some b =>
        markWalk n pool low h ⟨setBusy s.busy o, noteChunk n low s.tab o (size b)⟩ (ptrs b ++ w)
    else none
termination_by w => (unmarked pool s.busy, w.length)
decreasing_by
  · exact Prod.Lex.right _ (by simp)
  · exact Prod.Lex.left _ _ (unmarked_lt _ho (by simpa using _hb))

/-- The loop that skips the objects which do not move (snek-memory.c:389-397):
number of entries skipped, and the offset just above them. -/
def skipFixed (top : Nat) : List Chunk → Nat × Nat
  | [] => (0, top)
  | c :: t =>
    if c.old > top then (0, top)
    else
      let (k, top') := skipFixed (top + c.val) t
      (k + 1, top')

/-- `memmove(&snek_pool[new], &snek_pool[old], size)` (snek-memory.c:426-428): the
object is now found at `new`, and any other object that overlaps the range
written is gone.  The bytes left behind at `old` stay readable there if they
were not overwritten. -/
def moveObj (h : Heap β) (old new sz : Nat) : Heap β := fun x =>
  if x = new then h old
  else match h x with
    | none => none
    | some b => if x < new + sz ∧ new < x + size b then none else some b

/-- The copy loop (snek-memory.c:418-431): heap, entries with the new offset in the
union, and the offset above the last object copied. -/
def copyAll (h : Heap β) (top : Nat) : List Chunk → Heap β × List Chunk × Nat
  | [] => (h, [], top)
  | c :: t =>
    let (h', t', top') := copyAll (moveObj h c.old top c.val) (top + c.val) t
    (h', ⟨c.old, top⟩ :: t', top')

/-- `move_map` (snek-memory.c:610-621). -/
def moveMap (tab : List Chunk) (first low high : Nat) (offset : Nat) : Nat :=
  if offset < low ∨ high ≤ offset then offset
  else (tab.getD (findChunk tab offset first tab.length) ⟨0, 0⟩).val

/-- Overwrite the object at an offset by another of the same size. -/
def setObj (h : Heap β) (o : Nat) (b : β) : Heap β := fun x => if x = o then some b else h x

/-- State of a move walk: busy bitmap (by new offset) and heap. -/
structure MoveSt (β : Type) where
  busy : Nat → Bool
  heap : Heap β

/-- The move walk: `walk(snek_move_addr, snek_poly_move)` (snek-memory.c:285-321),
`snek_move_block_offset`, `snek_move_block_addr`, `snek_move_addr`,
`snek_move_offset`, `snek_poly_move` (623-712) and the `move` callbacks.  The
list holds references read before they were rewritten.  All references of
one object are rewritten when it is visited; in C they are rewritten one by one
as the recursion gets to them, but nothing else reads them meanwhile. -/
def moveWalk (pool : Nat) (f : Nat → Nat) (s : MoveSt β) : List Nat → Option (Heap β)
  | [] => some s.heap
  | o :: w =>
    if _hb : s.busy (f o) = true then moveWalk pool f s w
    else if _ho : f o < pool then
      match s.heap (f o) with
      | none => none
      | some b =>
        moveWalk pool f
          ⟨setBusy s.busy (f o), setObj s.heap (f o) (rename f b)⟩
          (ptrs b ++ w)
    else none
termination_by w => (unmarked pool s.busy, w.length)
decreasing_by
  · exact Prod.Lex.right _ (by simp)
  · exact Prod.Lex.left _ _ (unmarked_lt _ho (by simpa using _hb))

/-- The part of the interpreter state the collector works on: heap, roots (the
value stack and the `snek_root` table, snek-memory.c:30-63, 292-305, in the order
walked, without the slots that hold no reference), `snek_top`
(130) and `snek_last_top` (335). -/
structure St (β : Type) where
  heap : Heap β
  roots : List Nat
  top : Nat
  lastTop : Nat

/-- One turn of the `for (;;)` loop of `snek_collect` (snek-memory.c:379-448), from
`chunk_low = low` and `top`.  Result: heap, roots, new `top` and, when the loop
goes on, the next `chunk_low`. -/
def pass (n pool : Nat) (s : St β) (low top : Nat) : Option (St β × Nat × Option Nat) :=
  match markWalk n pool low s.heap ⟨fun _ => false, ⟨[], s.top⟩⟩ s.roots with
  | none => none
  | some m =>
    let tab := m.tab.tab
    let (c, top1) := skipFixed top tab
    if c = n then some (s, top1, some m.tab.high)
    else
      let low1 := (tab.getD c ⟨0, 0⟩).old
      let (h1, moved, top2) := copyAll s.heap top1 (tab.drop c)
      let next := if tab.length ≠ n then none else some m.tab.high
      if c < tab.length then
        let f := moveMap (tab.take c ++ moved) c low1 m.tab.high
        match moveWalk pool f ⟨fun _ => false, h1⟩ s.roots with
        | none => none
        | some h2 => some ({ s with heap := h2, roots := s.roots.map f }, top2, next)
      else some (s, top2, next)

/-- The `for (;;)` loop of `snek_collect` (snek-memory.c:379-448).  `fuel` bounds the
number of turns; running out of it is `none`, like a fault. -/
def collectLoop (n pool : Nat) : Nat → St β → Nat → Nat → Option (St β × Nat)
  | 0, _, _, _ => none
  | fuel + 1, s, low, top =>
    match pass n pool s low top with
    | none => none
    | some (s', top', none) => some (s', top')
    | some (s', top', some low') => collectLoop n pool fuel s' low' top'

/-- `SNEK_COLLECT_FULL` and `SNEK_COLLECT_INCREMENTAL` (snek.h:702-703). -/
inductive Style | full | incremental
deriving DecidableEq

/-- The style actually used (snek-memory.c:358-365).  `snek_collect_counts` is never
incremented anywhere in the source, so its test never fires. -/
def effStyle (lastTop : Nat) (style : Style) : Style :=
  if lastTop = 0 then .full else style

/-- `snek_collect` (snek-memory.c:351-456).  Clearing the address caches (370-373) is
not modelled: they are only used to speed up `snek_pool_addr`. -/
def collect (n pool : Nat) (style : Style) (s : St β) : Option (St β) :=
  let style := effStyle s.lastTop style
  let low := match style with
    | .full => 0
    | .incremental => s.lastTop
  match collectLoop n pool (s.top + 2) s low low with
  | none => none
  | some (s', top) =>
    some { s' with
      top := top
      lastTop := match style with
        | .full => top
        | .incremental => s'.lastTop }

/-- `snek_size_round` (snek-memory.c:184-188), without the wrap-around of the offset
type. -/
def sizeRound (sz : Nat) : Nat := (sz + 3) / 4 * 4

/-- Result of `snek_alloc`. -/
inductive AllocRes (β : Type)
  | fault
  | oom (s : St β)
  | ok (addr : Nat) (s : St β)

/-- `memset(addr, '\0', size)` (snek-memory.c:730): objects overlapping the range are
gone. -/
def clearRange (h : Heap β) (a sz : Nat) : Heap β := fun x =>
  match h x with
  | none => none
  | some b => if x < a + sz ∧ a < x + size b then none else some b

/-- The success path of `snek_alloc` (snek-memory.c:727-731); the caller stores its
object in the range. -/
def bump (s : St β) (sz : Nat) : AllocRes β :=
  .ok s.top { s with top := s.top + sz, heap := clearRange s.heap s.top sz }

/-- `snek_alloc` (snek-memory.c:714-732). -/
def alloc (n pool : Nat) (s : St β) (size : Nat) : AllocRes β :=
  let size := sizeRound size
  if pool - s.top < size then
    match collect n pool .incremental s with
    | none => .fault
    | some s1 =>
      if pool - s1.top < size then
        match collect n pool .full s1 with
        | none => .fault
        | some s2 => if pool - s2.top < size then .oom s2 else bump s2 size
      else bump s1 size
  else bump s size

end Snek.Gc
