import Verif.Props.C14
/-!
# C18 Collection result does not depend on the chunk-table size
-/
namespace Snek
open Gc Spec HeapObj

/-- For any two table sizes both collections finish, with the same used size, the same roots and the same reachable objects at the
same addresses. -/
theorem C18_tables {β : Type} [HeapObj β] [LawfulHeapObj β] (n m pool : Nat) (hn : 0 < n) (hm : 0 < m) (s : St β)
    (ok : PoolOK pool s) (style : Style) :
    ∃ s1 s2, collect n pool style s = some s1 ∧ collect m pool style s = some s2 ∧
      s1.top = s2.top ∧ s1.lastTop = s2.lastTop ∧ s1.roots = s2.roots ∧
      (∀ o, Reach s1.heap s1.roots o ↔ Reach s2.heap s2.roots o) ∧
      (∀ o, Reach s1.heap s1.roots o → s1.heap o = s2.heap o) := by
  obtain ⟨s1, e1, a1, b1, ren1, inv1, -⟩ := collect_spec hn ok style
  obtain ⟨s2, e2, a2, b2, ren2, inv2, -⟩ := collect_spec hm ok style
  have ht : s1.top = s2.top := by omega
  refine ⟨s1, s2, e1, e2, ht, by rw [b1, b2, ht], by rw [ren1.rts, ren2.rts], ?_, ?_⟩
  · intro o
    constructor
    · intro h
      obtain ⟨x, hx, rfl⟩ := ren1.reach_inv (Inv.obj ok) h
      exact ren2.reach hx
    · intro h
      obtain ⟨x, hx, rfl⟩ := ren2.reach_inv (Inv.obj ok) h
      exact ren1.reach hx
  · intro o h
    obtain ⟨x, hx, rfl⟩ := ren1.reach_inv (Inv.obj ok) h
    obtain ⟨b, hb⟩ := Inv.obj ok x hx
    rw [ren1.objs x b hx hb, ren2.objs x b hx hb]

/-- A state to which it applies, with tables of one and of 64 entries. -/
example : ∃ s s1 s2 : St (PObj 4), s.top = 32 ∧ collect 1 64 .full s = some s1 ∧ collect 64 64 .full s = some s2 ∧
    s1.roots = s2.roots := by
  obtain ⟨outs, out, s, h, hr, ht, -⟩ := C14_demo_state
  have ok := C14_always 1 64 (by omega) _ _ _ _ h
  obtain ⟨s1, s2, h1, h2, -, -, h3, -⟩ := C18_tables 1 64 64 (by omega) (by omega) s ok .full
  exact ⟨s, s1, s2, ht, h1, h2, h3⟩

end Snek
