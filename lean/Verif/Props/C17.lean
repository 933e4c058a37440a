import Verif.Props.C14
/-!
# C17 Out of memory is reported only when memory is really exhausted
-/
namespace Snek
open Gc Spec HeapObj

/-- The request rounded up to whole words. -/
def C17_rounded (sz : Nat) : Nat := if sz % 4 = 0 then sz else sz - sz % 4 + 4

/-- An allocation fails exactly when the objects reachable at that moment and the rounded request do not fit into the pool
together. Otherwise it succeeds. -/
theorem C17_exact {β : Type} [HeapObj β] [LawfulHeapObj β] (n pool : Nat) (hn : 0 < n) (s : St β) (ok : PoolOK pool s)
    (sz : Nat) :
    ((∃ s', alloc n pool s sz = .oom s') ↔ pool < total s.heap (liveFrom pool s.heap s.roots 0) + C17_rounded sz) ∧
    ((∃ a s', alloc n pool s sz = .ok a s') ↔ total s.heap (liveFrom pool s.heap s.roots 0) + C17_rounded sz ≤ pool) := by
  have hr : C17_rounded sz = sizeRound sz := by unfold C17_rounded sizeRound; split <;> omega
  rw [hr]
  rcases alloc_spec hn ok sz with ⟨s1, e, hlt⟩ | ⟨s0, ρ, e, inv0, ren, mono, hfit⟩
  · rw [e]
    refine ⟨⟨fun _ => hlt, fun _ => ⟨s1, rfl⟩⟩, ⟨?_, fun h => by omega⟩⟩
    rintro ⟨a, s', h⟩; cases h
  · have h1 := live_le_top inv0
    have h2 : total s0.heap (liveFrom pool s0.heap s0.roots 0) = total s.heap (liveFrom pool s.heap s.roots 0) := by
      apply total_renamed ren (Inv.obj ok) mono
      · intro o hr
        have := wf_lt ok.wf hr
        have := ok.htop
        omega
      · intro o hr
        have := wf_lt inv0.wf (ren.reach hr)
        have := inv0.htop
        omega
    rw [e]
    refine ⟨⟨?_, fun h => by omega⟩, ⟨fun _ => by omega, fun _ => ⟨_, _, rfl⟩⟩⟩
    rintro ⟨s', h⟩
    cases h

/-- The demo state of C14 has room for 44 more bytes only after a collection. -/
example : ∃ s : St (PObj 4), PoolOK 64 s ∧ s.top = 32 := by
  obtain ⟨outs, out, s, h, hr, ht, -⟩ := C14_demo_state
  exact ⟨s, C14_always 1 64 (by omega) _ _ _ _ h, ht⟩

end Snek
