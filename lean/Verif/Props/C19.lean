import Verif.Props.C14
/-!
# C19 Collection preserves the relative order of object addresses
-/
namespace Snek
open Gc Spec HeapObj

/-- A collection moves objects by an order preserving map. -/
theorem C19_order {β : Type} [HeapObj β] [LawfulHeapObj β] (n pool : Nat) (hn : 0 < n) (s : St β) (ok : PoolOK pool s)
    (style : Style) :
    ∃ s' ρ, collect n pool style s = some s' ∧ Renamed ρ s.heap s.roots s'.heap s'.roots ∧
      (∀ o o', Reach s.heap s.roots o → Reach s.heap s.roots o' → (ρ o < ρ o' ↔ o < o') ∧ (ρ o = ρ o' ↔ o = o')) := by
  obtain ⟨s', ρ, e, inv', ren, mono, -⟩ := collect_ren hn ok style
  refine ⟨s', ρ, e, ren, ?_⟩
  intro o o' hr hr'
  have h1 := mono o o' hr hr'
  have h2 := mono o' o hr' hr
  rcases Nat.lt_trichotomy o o' with h | h | h
  · have := h1 h; omega
  · rw [h]; simp
  · have := h2 h; omega

/-- So does an allocation, however many collections it runs. -/
theorem C19_order_alloc {β : Type} [HeapObj β] [LawfulHeapObj β] (n pool : Nat) (hn : 0 < n) (s : St β) (ok : PoolOK pool s)
    (sz a : Nat) (s' : St β) (h : alloc n pool s sz = .ok a s') :
    ∃ ρ, s'.roots = s.roots.map ρ ∧
      (∀ o o', Reach s.heap s.roots o → Reach s.heap s.roots o' → (ρ o < ρ o' ↔ o < o') ∧ (ρ o = ρ o' ↔ o = o')) ∧
      (∀ o, Reach s.heap s.roots o → ρ o < a) := by
  rcases alloc_spec hn ok sz with ⟨s1, e, -⟩ | ⟨s0, ρ, e, inv0, ren, mono, hfit⟩
  · rw [e] at h; cases h
  · rw [e] at h
    unfold bump at h
    injection h with h1 h2
    subst h1 h2
    refine ⟨ρ, ren.rts, ?_, ?_⟩
    · intro o o' hr hr'
      have h1 := mono o o' hr hr'
      have h2 := mono o' o hr' hr
      rcases Nat.lt_trichotomy o o' with h | h | h
      · have := h1 h; omega
      · rw [h]; simp
      · have := h2 h; omega
    · intro o hr
      have := wf_lt inv0.wf (ren.reach hr)
      omega

example : ∃ s : St (PObj 4), PoolOK 64 s ∧ s.roots = [16, 4] := by
  obtain ⟨outs, out, s, h, hr, ht, -⟩ := C14_demo_state
  exact ⟨s, C14_always 1 64 (by omega) _ _ _ _ h, hr⟩

end Snek
