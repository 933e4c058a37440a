/- Consequences of the collector theorems used by the property files. -/
import Verif.Proofs.GcMachine
import Verif.Proofs.HeapObj

namespace Snek.Gc
open HeapObj Spec

variable {β : Type} [HeapObj β] [LawfulHeapObj β]

/-- `Renamed` and order preservation, on reachable objects. -/
def MonoOn (ρ : Nat → Nat) (h : Heap β) (roots : List Nat) : Prop :=
  ∀ o o', Reach h roots o → Reach h roots o' → o < o' → ρ o < ρ o'

omit [LawfulHeapObj β] in
theorem MonoOn.inj {ρ : Nat → Nat} {h : Heap β} {roots : List Nat} (m : MonoOn ρ h roots)
    {x y : Nat} (hx : Reach h roots x) (hy : Reach h roots y) (he : ρ x = ρ y) : x = y := by
  rcases Nat.lt_trichotomy x y with h1 | h1 | h1
  · have := m x y hx hy h1; omega
  · exact h1
  · have := m y x hy hx h1; omega

/-- Sum of the sizes of the objects below. -/
theorem below_renamed {pool : Nat} {ρ : Nat → Nat} {s s' : St β}
    (ren : Renamed ρ s.heap s.roots s'.heap s'.roots) (inv : Inv pool s) (inv' : Inv pool s')
    (mono : MonoOn ρ s.heap s.roots) {o : Nat} (ho : Reach s.heap s.roots o) :
    total s'.heap ((liveFrom pool s'.heap s'.roots 0).filter (· < ρ o)) =
      total s.heap ((liveFrom pool s.heap s.roots 0).filter (· < o)) := by
  rw [liveFrom_renamed ren inv.obj mono
    (fun o hr => by have := wf_lt inv.wf hr; have := inv.htop; omega)
    (fun o hr => by have := wf_lt inv'.wf (ren.reach hr); have := inv'.htop; omega)]
  rw [List.filter_map]
  unfold total
  rw [List.map_map]
  have e : (liveFrom pool s.heap s.roots 0).filter ((fun x => decide (x < ρ o)) ∘ ρ) =
      (liveFrom pool s.heap s.roots 0).filter (· < o) := by
    apply List.filter_congr
    intro x hx
    have hrx := (liveFrom_mem.1 hx).2.1
    simp only [Function.comp_apply]
    apply decide_eq_decide.2
    constructor
    · intro h
      rcases Nat.lt_trichotomy x o with h1 | h1 | h1
      · exact h1
      · rw [h1] at h; omega
      · have := mono o x ho hrx h1; omega
    · exact mono x o hrx ho
  rw [e]
  congr 1
  apply List.map_congr_left
  intro x hx
  exact ren.size_eq inv.obj (liveFrom_mem.1 (List.mem_filter.1 hx).1).2.1

/-- The live objects never take more than the used part. -/
theorem live_le_top {pool : Nat} {s : St β} (inv : Inv pool s) :
    total s.heap (liveFrom pool s.heap s.roots 0) ≤ s.top := by
  obtain ⟨s', -, h2, -, -, -, h3, -⟩ := collect_spec (n := 1) (by omega) inv .full
  have : startOf s .full = 0 := by simp [startOf, effStyle]
  rw [this] at h2
  omega

/-- Sizes being multiples of 4, so are all positions. -/
structure Aligned (s : St β) : Prop where
  top : s.top % 4 = 0
  last : s.lastTop % 4 = 0

omit [LawfulHeapObj β] in
theorem total_mod (hal : ∀ b : β, size b % 4 = 0) (h : Heap β) (l : List Nat) : total h l % 4 = 0 := by
  unfold total
  induction l with
  | nil => rfl
  | cons a l ih =>
    simp only [List.map_cons, List.sum_cons]
    have : sizeAt h a % 4 = 0 := by
      unfold Spec.sizeAt
      split
      · exact hal _
      · rfl
    omega

theorem collect_aligned {n pool : Nat} (hn : 0 < n) (hal : ∀ b : β, size b % 4 = 0) {s : St β}
    (inv : Inv pool s) (al : Aligned s) (style : Style) {s' : St β}
    (e : collect n pool style s = some s') : Aligned s' := by
  obtain ⟨s1, e1, ht, hl, -⟩ := collect_spec hn inv style
  rw [e1] at e
  injection e with e
  subst e
  have h4 := total_mod hal s.heap (liveFrom pool s.heap s.roots (startOf s style))
  have hs : startOf s style % 4 = 0 := by
    rcases startOf_cases s style with h | h <;> rw [h]
    exact al.last
  refine ⟨by omega, ?_⟩
  rw [hl]
  split
  · omega
  · exact al.last

/-- The state `snek_alloc` bumps is aligned too. -/
theorem alloc_aligned {n pool : Nat} (hn : 0 < n) (hal : ∀ b : β, size b % 4 = 0) {s : St β}
    (inv : Inv pool s) (al : Aligned s) {sz a : Nat} {s' : St β}
    (e : alloc n pool s sz = .ok a s') : a % 4 = 0 ∧ Aligned s' := by
  have hb : ∀ s0 : St β, Aligned s0 → bump s0 (sizeRound sz) = .ok a s' → a % 4 = 0 ∧ Aligned s' := by
    intro s0 al0 e
    unfold bump at e
    injection e with e1 e2
    subst e1 e2
    refine ⟨al0.top, ?_, al0.last⟩
    have := al0.top
    simp only [sizeRound]
    omega
  unfold alloc at e
  simp only [] at e
  split at e
  · obtain ⟨s1, -, e1, inv1, -⟩ := collect_ren hn inv .incremental
    have al1 := collect_aligned hn hal inv al .incremental e1
    rw [e1] at e
    simp only [] at e
    split at e
    · obtain ⟨s2, -, e2, inv2, -⟩ := collect_ren hn inv1 .full
      have al2 := collect_aligned hn hal inv1 al1 .full e2
      rw [e2] at e
      simp only [] at e
      split at e
      · cases e
      · exact hb s2 al2 e
    · exact hb s1 al1 e
  · exact hb s al e

theorem step_aligned {n pool : Nat} (hn : 0 < n) (hal : ∀ b : β, size b % 4 = 0) {s s' : St β}
    (inv : Inv pool s) (al : Aligned s) {op : MOp β} {out : MOut β} (e : mstep n pool s op = .ok out s') :
    Aligned s' := by
  cases op with
  | alloc t =>
    simp only [mstep] at e
    split at e
    · cases e
    · split at e
      · cases e
      · cases e
      · rename_i a s1 e1
        have := (alloc_aligned hn hal inv al e1).2
        injection e with _ e
        subst e
        exact ⟨this.top, this.last⟩
  | load i k =>
    simp only [mstep] at e
    split at e
    · split at e
      · cases e
      · split at e
        · cases e
        · injection e with _ e; subst e; exact ⟨al.top, al.last⟩
    · cases e
  | store i t =>
    simp only [mstep] at e
    split at e
    · split at e
      · cases e
      · split at e
        · injection e with _ e; subst e; exact ⟨al.top, al.last⟩
        · cases e
    · cases e
  | keep sel =>
    simp only [mstep] at e
    split at e
    · injection e with _ e; subst e; exact ⟨al.top, al.last⟩
    · cases e
  | look i =>
    simp only [mstep] at e
    split at e
    · split at e
      · cases e
      · injection e with _ e; subst e; exact al
    · cases e
  | same i j =>
    simp only [mstep] at e
    split at e
    · injection e with _ e; subst e; exact al
    · cases e
  | collect style =>
    simp only [mstep] at e
    split at e
    · cases e
    · rename_i s1 e1
      injection e with _ e; subst e
      exact collect_aligned hn hal inv al style e1

theorem step_inv {n pool : Nat} (hn : 0 < n) {r : RefSt β} {s s' : St β} (hs : Sim pool r s)
    {op : MOp β} {out : MOut β} (e : mstep n pool s op = .ok out s') : ∃ r', Sim pool r' s' := by
  have := step_sim hn hs op
  rw [e] at this
  generalize refStep r op = y at this
  cases this with
  | ok h => exact ⟨_, h⟩

theorem run_inv {n pool : Nat} (hn : 0 < n) (ops : List (MOp β)) {r : RefSt β} {s s' : St β}
    (hs : Sim pool r s) {outs : List (MOut β)} {out : MOut β}
    (e : mrun n pool s ops = (outs, .ok out s')) :
    Inv pool s' ∧ ((∀ b : β, size b % 4 = 0) → Aligned s → Aligned s') := by
  induction ops generalizing r s outs with
  | nil =>
    simp only [mrun] at e
    injection e with _ e
    injection e with _ e
    subst e
    obtain ⟨ρ, -, -, -, inv⟩ := hs
    exact ⟨inv, fun _ h => h⟩
  | cons op ops ih =>
    simp only [mrun] at e
    split at e
    · rename_i o s1 e1
      obtain ⟨r', hs'⟩ := step_inv hn hs e1
      obtain ⟨ρ, -, -, -, inv⟩ := hs
      generalize hm : mrun n pool s1 ops = m at e
      obtain ⟨outs', res⟩ := m
      simp only [] at e
      injection e with _ e
      subst e
      have := ih hs' hm
      exact ⟨this.1, fun hal al => this.2 hal (step_aligned hn hal inv al e1)⟩
    · injection e with _ e; cases e
    · injection e with _ e; cases e
    · injection e with _ e; cases e

end Snek.Gc
