/-
The interpreter as the memory manager sees it: a sequence of heap operations on
values held in roots.  This is the discipline all interpreter code is meant to
follow: values live on the value stack or in the root table across an
allocation, and the new object is filled in after it (for example
snek_list_plus, snek-list.c:104-120; snek_frame_push, snek-frame.c:134-148).
-/
import Verif.Model.Gc

namespace Snek.Gc
open HeapObj

/-- One heap operation.  Objects to be stored are given as templates whose
references are root numbers. -/
inductive MOp (β : Type)
  /-- allocate an object and push it on the roots -/
  | alloc (t : β)
  /-- push reference `k` of the object named by root `i` -/
  | load (i k : Nat)
  /-- overwrite the object named by root `i` -/
  | store (i : Nat) (t : β)
  /-- rearrange, copy and drop roots -/
  | keep (sel : List Nat)
  /-- look at the object named by root `i` -/
  | look (i : Nat)
  /-- are roots `i` and `j` the same object? -/
  | same (i j : Nat)
  /-- run the collector now -/
  | collect (style : Style)

/-- What a program can see. -/
inductive MOut (β : Type)
  | nothing
  | obj (shape : β)
  | bool (b : Bool)

/-- Outcome of one operation: it worked; it was not a legal operation; out of memory;
a wild memory access. -/
inductive MRes (σ β : Type)
  | ok (out : MOut β) (s : σ)
  | bad
  | oom
  | fault

variable {β : Type} [HeapObj β]

/-- Content of root `i`. -/
def rootAt (roots : List Nat) (i : Nat) : Nat := roots.getD i 0

/-- The template only uses existing roots. -/
def okTemplate (roots : List Nat) (t : β) : Bool :=
  (ptrs t).all (· < roots.length)

/-- An object with its references blanked out. -/
def shape (b : β) : β := rename (fun _ => 0) b

/-- Run one operation with the collecting allocator (`n` chunks, pool of `pool` bytes). -/
def mstep (n pool : Nat) (s : St β) : MOp β → MRes (St β) β
  | .alloc t =>
    if size t = 0 ∨ okTemplate s.roots t = false then .bad
    else match alloc n pool s (size t) with
      | .fault => .fault
      | .oom _ => .oom
      | .ok a s' => .ok .nothing { s' with
          heap := setObj s'.heap a (rename (rootAt s'.roots) t)
          roots := s'.roots ++ [a] }
  | .load i k =>
    if i < s.roots.length then
      match s.heap (rootAt s.roots i) with
      | none => .fault
      | some b =>
        match (ptrs b)[k]? with
        | none => .bad
        | some p => .ok .nothing { s with roots := s.roots ++ [p] }
    else .bad
  | .store i t =>
    if i < s.roots.length ∧ okTemplate s.roots t = true then
      match s.heap (rootAt s.roots i) with
      | none => .fault
      | some b =>
        if size t = size b then
          .ok .nothing { s with heap := setObj s.heap (rootAt s.roots i) (rename (rootAt s.roots) t) }
        else .bad
    else .bad
  | .keep sel =>
    if sel.all (· < s.roots.length) then .ok .nothing { s with roots := sel.map (rootAt s.roots) }
    else .bad
  | .look i =>
    if i < s.roots.length then
      match s.heap (rootAt s.roots i) with
      | none => .fault
      | some b => .ok (.obj (shape b)) s
    else .bad
  | .same i j =>
    if i < s.roots.length ∧ j < s.roots.length then
      .ok (.bool (decide (rootAt s.roots i = rootAt s.roots j))) s
    else .bad
  | .collect style =>
    match collect n pool style s with
    | none => .fault
    | some s' => .ok .nothing s'

/-- Run a program: outputs up to the first operation that does not work, and how it
ended. -/
def mrun (n pool : Nat) (s : St β) : List (MOp β) → List (MOut β) × MRes (St β) β
  | [] => ([], .ok .nothing s)
  | op :: ops =>
    match mstep n pool s op with
    | .ok out s' => let (outs, r) := mrun n pool s' ops; (out :: outs, r)
    | .bad => ([], .bad)
    | .oom => ([], .oom)
    | .fault => ([], .fault)

/-- The pool before anything was allocated. -/
def emptySt : St β := ⟨fun _ => none, [], 0, 0⟩

end Snek.Gc
