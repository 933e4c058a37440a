/-
The reference machine: the same heap operations with unlimited memory, no
collector, and addresses that are never reused.
-/
import Verif.Model.GcMachine
import Verif.Spec.Gc

namespace Spec
open Snek.Gc HeapObj

/-- Objects by number, in order of creation. -/
structure RefSt (β : Type) where
  heap : Nat → Option β
  roots : List Nat
  next : Nat

variable {β : Type} [HeapObj β]

/-- Object number `o` becomes `b`. -/
def put (h : Nat → Option β) (o : Nat) (b : β) : Nat → Option β := fun x => if x = o then some b else h x

/-- One operation. -/
def refStep (s : RefSt β) : MOp β → MRes (RefSt β) β
  | .alloc t =>
    if size t = 0 ∨ okTemplate s.roots t = false then .bad
    else .ok .nothing ⟨put s.heap s.next (rename (rootAt s.roots) t), s.roots ++ [s.next], s.next + 1⟩
  | .load i k =>
    if i < s.roots.length then
      match s.heap (rootAt s.roots i) with
      | none => .fault
      | some b =>
        match (ptrs b)[k]? with
        | none => .bad
        | some p => .ok .nothing { s with roots := s.roots ++ [p] }
    else .bad
  | .store i t =>
    if i < s.roots.length ∧ okTemplate s.roots t = true then
      match s.heap (rootAt s.roots i) with
      | none => .fault
      | some b =>
        if size t = size b then
          .ok .nothing { s with heap := put s.heap (rootAt s.roots i) (rename (rootAt s.roots) t) }
        else .bad
    else .bad
  | .keep sel =>
    if sel.all (· < s.roots.length) then .ok .nothing { s with roots := sel.map (rootAt s.roots) }
    else .bad
  | .look i =>
    if i < s.roots.length then
      match s.heap (rootAt s.roots i) with
      | none => .fault
      | some b => .ok (.obj (shape b)) s
    else .bad
  | .same i j =>
    if i < s.roots.length ∧ j < s.roots.length then
      .ok (.bool (decide (rootAt s.roots i = rootAt s.roots j))) s
    else .bad
  | .collect _ => .ok .nothing s

/-- Run a program. -/
def refRun (s : RefSt β) : List (MOp β) → List (MOut β) × MRes (RefSt β) β
  | [] => ([], .ok .nothing s)
  | op :: ops =>
    match refStep s op with
    | .ok out s' => let (outs, r) := refRun s' ops; (out :: outs, r)
    | .bad => ([], .bad)
    | .oom => ([], .oom)
    | .fault => ([], .fault)

/-- How a run ended. -/
inductive Ending | done | illegal | noMemory | wild
deriving DecidableEq

/-- How a run ended. -/
def ending {σ : Type} : MRes σ β → Ending
  | .ok _ _ => .done
  | .bad => .illegal
  | .oom => .noMemory
  | .fault => .wild

/-- Nothing allocated yet. -/
def refEmpty : RefSt β := ⟨fun _ => none, [], 0⟩

end Spec
