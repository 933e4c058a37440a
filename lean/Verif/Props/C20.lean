import Verif.Props.C14
/-!
# C20 An incremental collection only moves new objects
-/
namespace Snek
open Gc Spec HeapObj

/-- An incremental collection after a full one keeps every object below the mark left by the full one where it is, keeps the mark,
and otherwise is a collection like any other; what lies above the mark is packed. -/
theorem C20_incremental {β : Type} [HeapObj β] [LawfulHeapObj β] (n pool : Nat) (hn : 0 < n) (s : St β) (ok : PoolOK pool s)
    (hlast : s.lastTop ≠ 0) :
    ∃ s' ρ, collect n pool .incremental s = some s' ∧ Renamed ρ s.heap s.roots s'.heap s'.roots ∧
      (∀ o, Reach s.heap s.roots o → o < s.lastTop → ρ o = o) ∧
      (∀ o, Reach s.heap s.roots o → s.lastTop ≤ o → s.lastTop ≤ ρ o ∧ ρ o ≤ o) ∧
      (∀ o o', Reach s.heap s.roots o → Reach s.heap s.roots o' → o < o' → ρ o < ρ o') ∧
      s'.lastTop = s.lastTop ∧
      s'.top = s.lastTop + total s.heap (liveFrom pool s.heap s.roots s.lastTop) ∧ s'.top ≤ s.top := by
  obtain ⟨s', e, h2, h3, ren, inv', h4, hsep⟩ := collect_spec hn ok .incremental
  have heff : effStyle s.lastTop .incremental = .incremental := by simp [effStyle, hlast]
  have hst : startOf s .incremental = s.lastTop := by simp [startOf, heff]
  rw [hst] at h2 ren hsep
  rw [heff] at h3
  refine ⟨s', _, e, ren, ?_, ?_, ?_, by simpa using h3, h2, h4⟩
  · intro o _ h
    simp [packed, h]
  · intro o hr h
    have hnl : ¬ o < s.lastTop := by omega
    simp only [packed, hnl, if_false]
    refine ⟨by omega, ?_⟩
    have hap := liveFrom_apart (pool := pool) ok.wf s.lastTop
    have := newOff_le (top := s.lastTop) (o := o) hap (by
      intro u hu
      exact (liveFrom_mem.1 hu).2.2) (liveFrom_mem.2 ⟨by have := wf_lt ok.wf hr; have := ok.htop; omega, hr, h⟩)
    exact this
  · intro o o' hr hr' hlt
    have := hsep o o' hr hr' hlt
    have := (wf_lt ok.wf hr).1
    omega

/-- The mark is only set by full collections, to the end of the used part. -/
theorem C20_mark {β : Type} [HeapObj β] [LawfulHeapObj β] (n pool : Nat) (hn : 0 < n) (s : St β) (ok : PoolOK pool s) :
    ∃ s', collect n pool .full s = some s' ∧ s'.lastTop = s'.top := by
  obtain ⟨s', e, h2, h3, -⟩ := collect_spec hn ok .full
  refine ⟨s', e, ?_⟩
  have : effStyle s.lastTop .full = .full := by unfold effStyle; split <;> rfl
  rw [this] at h3
  simpa using h3

/-- A state with a nonzero mark: the demo of C14 after a full collection. -/
example : ∃ s : St (PObj 4), PoolOK 64 s ∧ s.lastTop ≠ 0 := by
  obtain ⟨outs, out, s, h, hr, ht, h16, h4, -⟩ := C14_demo_state
  have ok := C14_always 1 64 (by omega) _ _ _ _ h
  obtain ⟨s', ρ, e, ok', ren, hre, -⟩ := C14_collect 1 64 (by omega) s ok .full
  obtain ⟨s'', e', hl⟩ := C20_mark 1 64 (by omega) s ok
  rw [e] at e'
  injection e' with e'
  subst e'
  refine ⟨s', ok', ?_⟩
  have h1 : Reach s.heap s.roots 16 := .root (by rw [hr]; simp)
  obtain ⟨b, hb, h0, h1⟩ := ok'.wf.obj _ (hre _ h1)
  omega

end Snek
