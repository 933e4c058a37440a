import Verif.Proofs.Gc6
/-!
# C14 Garbage collection is invisible
-/
namespace Snek
open Gc Spec HeapObj

/-- Any program of heap operations (allocate, follow, overwrite, drop, look, compare identity, force a collection) sees the same
with the compacting collector as with unlimited memory and no collector: same outputs and same ending, except that it may run out
of memory, having shown the same outputs up to there.  It never makes a wild access. -/
theorem C14_invisible {β : Type} [HeapObj β] [LawfulHeapObj β] (n pool : Nat) (hn : 0 < n) (ops : List (MOp β)) :
    ending (mrun n pool emptySt ops).2 ≠ .wild ∧
    (ending (mrun n pool emptySt ops).2 = .noMemory ∧ (mrun n pool emptySt ops).1 <+: (refRun refEmpty ops).1 ∨
     (mrun n pool emptySt ops).1 = (refRun refEmpty ops).1 ∧
       ending (mrun n pool emptySt ops).2 = ending (refRun refEmpty ops).2) := by
  rcases run_sim hn (sim_empty pool) ops with ⟨h1, h2⟩ | ⟨h1, h2⟩
  · rw [h1]
    exact ⟨by simp [ending], Or.inl ⟨rfl, h2⟩⟩
  · refine ⟨?_, ?_⟩
    · revert h2
      generalize (mrun n pool emptySt ops).2 = x
      generalize (refRun refEmpty ops).2 = y
      intro h2
      cases h2 <;> simp [ending]
    · revert h2 h1
      generalize (mrun n pool emptySt ops).1 = ox
      generalize (mrun n pool emptySt ops).2 = x
      generalize (refRun refEmpty ops).2 = y
      intro h1 h2
      subst h1
      cases h2 with
      | ok _ => exact Or.inr ⟨rfl, rfl⟩
      | bad => exact Or.inr ⟨rfl, rfl⟩
      | oom => exact Or.inl ⟨rfl, List.prefix_refl _⟩

/-- The same for the objects snek really has. -/
theorem C14_invisible_snek (w n pool : Nat) (hn : 0 < n) (ops : List (MOp (PObj w))) :
    ending (mrun n pool emptySt ops).2 ≠ .wild ∧
    (ending (mrun n pool emptySt ops).2 = .noMemory ∧ (mrun n pool emptySt ops).1 <+: (refRun refEmpty ops).1 ∨
     (mrun n pool emptySt ops).1 = (refRun refEmpty ops).1 ∧
       ending (mrun n pool emptySt ops).2 = ending (refRun refEmpty ops).2) :=
  C14_invisible n pool hn ops

/-- One collection, from any pool in order: it succeeds, and afterwards the same object graph is there at other addresses, with
different objects at different addresses. -/
theorem C14_collect {β : Type} [HeapObj β] [LawfulHeapObj β] (n pool : Nat) (hn : 0 < n) (s : St β) (ok : PoolOK pool s)
    (style : Style) :
    ∃ s' ρ, collect n pool style s = some s' ∧ PoolOK pool s' ∧ Renamed ρ s.heap s.roots s'.heap s'.roots ∧
      (∀ o, Reach s.heap s.roots o → Reach s'.heap s'.roots (ρ o)) ∧
      (∀ p, Reach s'.heap s'.roots p → ∃ o, Reach s.heap s.roots o ∧ ρ o = p) ∧
      (∀ o o', Reach s.heap s.roots o → Reach s.heap s.roots o' → ρ o = ρ o' → o = o') := by
  obtain ⟨s', ρ, e, inv', ren, mono, -⟩ := collect_ren hn ok style
  refine ⟨s', ρ, e, inv', ren, fun o h => ren.reach h, ?_, fun o o' h h' he => MonoOn.inj mono h h' he⟩
  intro p hp
  obtain ⟨o, h, he⟩ := ren.reach_inv (Inv.obj ok) hp
  exact ⟨o, h, he.symm⟩

/-- Every state a program can get into is in order, so `C14_collect` and the theorems of C15 to C20 apply to it. -/
theorem C14_always {β : Type} [HeapObj β] [LawfulHeapObj β] (n pool : Nat) (hn : 0 < n) (ops : List (MOp β))
    (outs : List (MOut β)) (out : MOut β) (s : St β) (h : mrun n pool emptySt ops = (outs, .ok out s)) : PoolOK pool s :=
  (run_inv hn ops (sim_empty pool) h).1

/-- A list that contains itself, plus garbage between and around its two blocks. -/
def C14_demo : List (MOp (PObj 4)) :=
  [.alloc (Obj.str [120]), .alloc (Obj.store 1 [.imm 0]), .alloc (Obj.str [121, 122, 122, 122, 122]),
   .alloc (Obj.list .list 1 1 1), .store 1 (Obj.store 1 [.ref .list 3]), .keep [3, 1]]

/-- The state it leads to. -/
theorem C14_demo_state : ∃ outs out s, mrun 1 64 emptySt C14_demo = (outs, .ok out s) ∧ s.roots = [16, 4] ∧ s.top = 32 ∧
    s.heap 16 = some (Obj.list .list 1 1 4) ∧ s.heap 4 = some (Obj.store 1 [.ref .list 16]) ∧
    s.heap 0 = some (Obj.str [120]) := by
  refine ⟨_, _, _, rfl, rfl, rfl, rfl, rfl, rfl⟩

/-- It is in order, so collecting it works. -/
example : ∃ s s' : St (PObj 4), PoolOK 64 s ∧ s.roots = [16, 4] ∧ collect 1 64 .full s = some s' := by
  obtain ⟨outs, out, s, h, hr, -⟩ := C14_demo_state
  have ok := C14_always 1 64 (by omega) _ _ _ _ h
  obtain ⟨s', _, e, -⟩ := C14_collect 1 64 (by omega) s ok .full
  exact ⟨s, s', ok, hr, e⟩

end Snek
