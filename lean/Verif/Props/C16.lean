import Verif.Props.C14
import Verif.Model.PoolBytes
/-!
# C16 Allocation returns fresh storage

Where the storage is and what else is there: on objects. That it is zero-filled: on bytes, whatever a collection does to them.
-/
namespace Snek
open Gc Spec HeapObj

/-- A successful allocation: the region handed out is inside the pool, is at least as long as asked for, overlaps no reachable
object, and the reachable objects are the same as before (at other addresses if a collection was needed). -/
theorem C16_fresh {β : Type} [HeapObj β] [LawfulHeapObj β] (n pool : Nat) (hn : 0 < n) (s : St β) (ok : PoolOK pool s)
    (sz a : Nat) (s' : St β) (h : alloc n pool s sz = .ok a s') :
    a + sz ≤ pool ∧ a + sz ≤ s'.top ∧ s'.top ≤ pool ∧
    (∀ o, Reach s'.heap s'.roots o → o + sizeAt s'.heap o ≤ a) ∧
    (∃ ρ, Renamed ρ s.heap s.roots s'.heap s'.roots ∧
      ∀ o o', Reach s.heap s.roots o → Reach s.heap s.roots o' → ρ o = ρ o' → o = o') := by
  rcases alloc_spec hn ok sz with ⟨s1, e, -⟩ | ⟨s0, ρ, e, inv0, ren, mono, hfit⟩
  · rw [e] at h; cases h
  · rw [e] at h
    unfold bump at h
    injection h with h1 h2
    subst h1 h2
    have hsz := sizeRound_ge sz
    simp only []
    have hkeep : ∀ o b, Reach s0.heap s0.roots o → s0.heap o = some b →
        clearRange s0.heap s0.top (sizeRound sz) o = some b := by
      intro o b hr hb
      obtain ⟨b', hb', h1, h2⟩ := inv0.wf.obj o hr
      rw [hb] at hb'
      injection hb' with hb'
      subst hb'
      simp only [clearRange, hb]
      rw [if_neg (by omega)]
    refine ⟨by omega, by omega, by omega, ?_, ρ, ⟨ren.rts, ?_⟩, fun o o' hr hr' => MonoOn.inj mono hr hr'⟩
    · intro o hr
      have hr0 : Reach s0.heap s0.roots o := by
        induction hr with
        | root h => exact .root h
        | step _ hb hp ih =>
          rename_i x b p _
          obtain ⟨b', hb'⟩ := Inv.obj inv0 x ih
          have := hkeep x b' ih hb'
          rw [this] at hb
          injection hb with hb
          subst hb
          exact .step ih hb' hp
      obtain ⟨b, hb, h1, h2⟩ := inv0.wf.obj o hr0
      rw [sizeAt_some (hkeep o b hr0 hb)]; omega
    · intro o b hr hb
      exact hkeep (ρ o) _ (ren.reach hr) (ren.objs o b hr hb)

/-- For the objects snek has, in any state a program can get into, the address is a multiple of 4. -/
theorem C16_aligned (w n pool : Nat) (hn : 0 < n) (ops : List (MOp (PObj w))) (outs : List (MOut (PObj w)))
    (out : MOut (PObj w)) (s : St (PObj w)) (h : mrun n pool emptySt ops = (outs, .ok out s))
    (sz a : Nat) (s' : St (PObj w)) (ha : alloc n pool s sz = .ok a s') : a % 4 = 0 := by
  obtain ⟨inv, hal⟩ := run_inv hn ops (sim_empty pool) h
  have hsz : ∀ b : PObj w, size b % 4 = 0 := Obj.size_round w
  exact (alloc_aligned hn hsz inv (hal hsz ⟨rfl, rfl⟩) ha).1

/-- The storage handed out is all zero, as much as was asked for, inside the pool; no other byte changes but by a collection. -/
theorem C16_zero (pool : Nat) (collect : Style → Bytes → Bytes) (s : Bytes) (size a : Nat) (s' : Bytes)
    (h : allocBytes pool collect s size = some (a, s')) :
    (∀ i, i < size → s'.mem (a + i) = 0) ∧ (0 < size → a + size ≤ pool) ∧ a + size ≤ s'.top ∧
    ∃ t : Bytes, (t = s ∨ t = collect .incremental s ∨ t = collect .full (collect .incremental s)) ∧ a = t.top ∧
      ∀ i, i < a ∨ s'.top ≤ i → s'.mem i = t.mem i := by
  have hsz := sizeRound_ge size
  have key : ∀ t : Bytes, ¬ (pool - t.top < sizeRound size) → (a, s') = bumpBytes t (sizeRound size) →
      (∀ i, i < size → s'.mem (a + i) = 0) ∧ (0 < size → a + size ≤ pool) ∧ a + size ≤ s'.top ∧ a = t.top ∧ ∀ i, i < a ∨ s'.top ≤ i → s'.mem i = t.mem i := by
    intro t ht e
    unfold bumpBytes at e
    simp only [Prod.mk.injEq] at e
    obtain ⟨rfl, rfl⟩ := e
    refine ⟨fun i hi => ?_, fun h0 => by omega, by simp only []; omega, rfl, fun i hi => ?_⟩
    · simp only [zeroFill]; rw [if_pos (by omega)]
    · simp only [zeroFill] at hi ⊢; rw [if_neg (by omega)]
  unfold allocBytes at h
  simp only at h
  split at h
  · split at h
    · split at h
      · cases h
      · rename_i hf
        obtain ⟨h1, h2, h3, h4⟩ := key _ hf (Option.some.inj h).symm
        exact ⟨h1, h2, h3, _, .inr (.inr rfl), h4⟩
    · rename_i hf
      obtain ⟨h1, h2, h3, h4⟩ := key _ hf (Option.some.inj h).symm
      exact ⟨h1, h2, h3, _, .inr (.inl rfl), h4⟩
  · rename_i hf
    obtain ⟨h1, h2, h3, h4⟩ := key _ hf (Option.some.inj h).symm
    exact ⟨h1, h2, h3, _, .inl rfl, h4⟩

/-- A pool full of ones in which a full collection finds room. -/
example : ∃ a s', allocBytes 64 (fun st b => match st with | .full => ⟨b.mem, 32⟩ | .incremental => b) ⟨fun _ => 255, 60⟩ 9 = some (a, s') ∧ a = 32 ∧ s'.top = 44 ∧
    s'.mem 31 = 255 ∧ s'.mem 32 = 0 := ⟨_, _, rfl, rfl, rfl, rfl, rfl⟩

/-- Allocating in the demo state of C14. -/
example : ∃ s : St (PObj 4), PoolOK 64 s ∧ ∃ a s', alloc 1 64 s 30 = .ok a s' := by
  obtain ⟨outs, out, s, h, hr, ht, -⟩ := C14_demo_state
  refine ⟨s, C14_always 1 64 (by omega) _ _ _ _ h, ?_⟩
  unfold alloc
  rw [if_neg (by rw [ht]; decide)]
  exact ⟨_, _, rfl⟩

end Snek
