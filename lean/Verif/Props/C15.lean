import Verif.Props.C14
/-!
# C15 A full collection reclaims all garbage
-/
namespace Snek
open Gc Spec HeapObj

/-- After a full collection the used part is exactly as long as the reachable objects are together, and each of them starts where
the ones before it end: no garbage and no holes. The total is that of the objects reachable before. -/
theorem C15_packed {β : Type} [HeapObj β] [LawfulHeapObj β] (n pool : Nat) (hn : 0 < n) (s : St β) (ok : PoolOK pool s) :
    ∃ s', collect n pool .full s = some s' ∧
      s'.top = total s.heap (liveFrom pool s.heap s.roots 0) ∧
      s'.top = total s'.heap (liveFrom pool s'.heap s'.roots 0) ∧
      (∀ o, Reach s'.heap s'.roots o → o = total s'.heap ((liveFrom pool s'.heap s'.roots 0).filter (· < o))) := by
  obtain ⟨s', e, h2, h3, ren, inv', h4, hsep⟩ := collect_spec hn ok .full
  have hst : startOf s .full = 0 := by simp [startOf, effStyle]
  rw [hst] at h2 ren hsep
  have mono : MonoOn (packed pool s.heap s.roots 0) s.heap s.roots := by
    intro o o' hr hr' hlt
    have := hsep o o' hr hr' hlt
    have := (wf_lt ok.wf hr).1
    omega
  have htot : total s'.heap (liveFrom pool s'.heap s'.roots 0) = total s.heap (liveFrom pool s.heap s.roots 0) := by
    apply total_renamed ren (Inv.obj ok) mono
    · intro o hr
      have := wf_lt ok.wf hr
      have := ok.htop
      omega
    · intro o hr
      have := wf_lt inv'.wf (ren.reach hr)
      have := inv'.htop
      omega
  refine ⟨s', e, by omega, by omega, ?_⟩
  intro p hp
  obtain ⟨o, hr, rfl⟩ := ren.reach_inv (Inv.obj ok) hp
  rw [below_renamed ren ok inv' mono hr]
  unfold packed
  simp

/-- The demo graph of C14 is such a state: 20 of its 32 bytes are live. -/
example : ∃ s s' : St (PObj 4), PoolOK 64 s ∧ s.top = 32 ∧ collect 1 64 .full s = some s' := by
  obtain ⟨outs, out, s, h, hr, ht, -⟩ := C14_demo_state
  have ok := C14_always 1 64 (by omega) _ _ _ _ h
  obtain ⟨s', e, -⟩ := C15_packed 1 64 (by omega) s ok
  exact ⟨s, s', ok, ht, e⟩

end Snek
