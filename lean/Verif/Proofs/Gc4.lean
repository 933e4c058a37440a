/- Renaming a pool, the collection loop, `snek_collect` and `snek_alloc`. -/
import Verif.Proofs.Gc3

namespace Snek.Gc
open HeapObj Spec

variable {β : Type} [HeapObj β]

section
variable [LawfulHeapObj β]

theorem _root_.Spec.Renamed.reach {ρ : Nat → Nat} {h h' : Heap β} {roots roots' : List Nat}
    (ren : Renamed ρ h roots h' roots') {o : Nat} (hr : Reach h roots o) : Reach h' roots' (ρ o) := by
  induction hr with
  | root hm => exact .root (ren.rts ▸ List.mem_map_of_mem hm)
  | step hr hb hp ih =>
    apply Reach.step ih (ren.objs _ _ hr hb)
    rw [LawfulHeapObj.ptrs_rename]
    exact List.mem_map_of_mem hp

theorem _root_.Spec.Renamed.reach_inv {ρ : Nat → Nat} {h h' : Heap β} {roots roots' : List Nat}
    (ren : Renamed ρ h roots h' roots') (hobj : ∀ o, Reach h roots o → ∃ b, h o = some b)
    {x : Nat} (hr : Reach h' roots' x) : ∃ o, Reach h roots o ∧ x = ρ o := by
  induction hr with
  | root hm =>
    rw [ren.rts] at hm
    obtain ⟨o, ho, rfl⟩ := List.mem_map.1 hm
    exact ⟨o, .root ho, rfl⟩
  | step _ hb hp ih =>
    obtain ⟨o, hr, rfl⟩ := ih
    obtain ⟨b, hb0⟩ := hobj o hr
    rw [ren.objs o b hr hb0] at hb
    injection hb with hb
    rw [← hb, LawfulHeapObj.ptrs_rename] at hp
    obtain ⟨p, hp', rfl⟩ := List.mem_map.1 hp
    exact ⟨p, .step hr hb0 hp', rfl⟩

theorem _root_.Spec.Renamed.size_eq {ρ : Nat → Nat} {h h' : Heap β} {roots roots' : List Nat}
    (ren : Renamed ρ h roots h' roots') (hobj : ∀ o, Reach h roots o → ∃ b, h o = some b)
    {o : Nat} (hr : Reach h roots o) : sizeAt h' (ρ o) = sizeAt h o := by
  obtain ⟨b, hb⟩ := hobj o hr
  rw [sizeAt_some hb, sizeAt_some (ren.objs o b hr hb), LawfulHeapObj.size_rename]

theorem _root_.Spec.Renamed.wf {ρ : Nat → Nat} {h h' : Heap β} {roots roots' : List Nat} {top top' : Nat}
    (ren : Renamed ρ h roots h' roots') (wf : WF h roots top)
    (hsep : ∀ o o', Reach h roots o → Reach h roots o' → o < o' → ρ o + Spec.sizeAt h o ≤ ρ o')
    (hend : ∀ o, Reach h roots o → ρ o + Spec.sizeAt h o ≤ top') : WF h' roots' top' := by
  have hobj : ∀ o, Reach h roots o → ∃ b, h o = some b := fun o hr => by
    obtain ⟨b, hb, -⟩ := wf.obj o hr; exact ⟨b, hb⟩
  constructor
  · intro x hx
    obtain ⟨o, hr, rfl⟩ := ren.reach_inv hobj hx
    obtain ⟨b, hb, hp, -⟩ := wf.obj o hr
    refine ⟨_, ren.objs o b hr hb, ?_, ?_⟩
    · rw [LawfulHeapObj.size_rename]; exact hp
    · rw [LawfulHeapObj.size_rename]
      have := hend o hr
      rw [sizeAt_some hb] at this
      exact this
  · intro x x' hx hx' hlt
    obtain ⟨o, hr, rfl⟩ := ren.reach_inv hobj hx
    obtain ⟨o', hr', rfl⟩ := ren.reach_inv hobj hx'
    rw [ren.size_eq hobj hr]
    rcases Nat.lt_trichotomy o o' with h | h | h
    · exact hsep o o' hr hr' h
    · subst h; omega
    · have := hsep o' o hr' hr h; omega

theorem _root_.Spec.Renamed.trans {ρ τ : Nat → Nat} {h h' h'' : Heap β} {roots roots' roots'' : List Nat}
    (r1 : Renamed ρ h roots h' roots') (r2 : Renamed τ h' roots' h'' roots'')
    {σ : Nat → Nat} (hσ : ∀ o, Reach h roots o → τ (ρ o) = σ o) : Renamed σ h roots h'' roots'' := by
  constructor
  · rw [r2.rts, r1.rts, List.map_map]
    apply List.map_congr_left
    intro r hr
    exact hσ r (.root hr)
  · intro o b hr hb
    rw [← hσ o hr, r2.objs (ρ o) (rename ρ b) (r1.reach hr) (r1.objs o b hr hb), LawfulHeapObj.rename_comp]
    congr 1
    apply LawfulHeapObj.rename_congr
    intro p hp
    exact hσ p (.step hr hb hp)

/-- Final place of an object when everything from `low` on is packed from `top`. -/
def place (sz : Nat → Nat) (low top : Nat) (U : List Nat) (o : Nat) : Nat :=
  if o < low then o else newOff sz top U o

theorem turn_wf {n pool : Nat} {s : St β} {low top : Nat} (pre : Pre pool s low top)
    {U : List Nat} (hU : U = liveFrom pool s.heap s.roots low) :
    (∀ o o', Reach s.heap s.roots o → Reach s.heap s.roots o' → o < o' →
      turn n (Spec.sizeAt s.heap) top U o + Spec.sizeAt s.heap o ≤ turn n (Spec.sizeAt s.heap) top U o') ∧
    (∀ o, Reach s.heap s.roots o → turn n (Spec.sizeAt s.heap) top U o + Spec.sizeAt s.heap o ≤ s.top) := by
  have hUA : Apart (sizeAt s.heap) U := hU ▸ liveFrom_apart pre.wf low
  have hUs := apart_sorted hUA
  have hUm : ∀ {o}, o ∈ U ↔ o < pool ∧ Reach s.heap s.roots o ∧ low ≤ o := by
    intro o; rw [hU]; exact liveFrom_mem
  have hUmem : ∀ o, Reach s.heap s.roots o → low ≤ o → o ∈ U := by
    intro o hr hl
    have := wf_lt pre.wf hr
    exact hUm.2 ⟨by have := pre.htop; omega, hr, hl⟩
  have hUlow : ∀ u ∈ U, top ≤ u := fun u hu => Nat.le_trans pre.htl (hUm.1 hu).2.2
  have hle : ∀ o, turn n (Spec.sizeAt s.heap) top U o ≤ o := by
    intro o
    unfold turn
    by_cases ho : o ∈ U.take n
    · rw [if_pos ho]; exact newOff_le hUA hUlow (List.mem_of_mem_take ho)
    · rw [if_neg ho]; exact Nat.le_refl _
  constructor
  · intro o o' hr hr' hlt
    have hsep := pre.wf.sep o o' hr hr' hlt
    have h1 := hle o
    unfold turn at h1 ⊢
    by_cases ho' : o' ∈ U.take n
    · rw [if_pos ho']
      by_cases hl : low ≤ o
      · have hoU := hUmem o hr hl
        have ho : o ∈ U.take n := by
          rcases mem_take_drop (n := n) hoU with h | h
          · exact h
          · have := take_lt_drop hUs ho' h; omega
        rw [if_pos ho]
        exact newOff_step hUs hoU hlt
      · have := pre.done o hr (by omega)
        have h3 : top ≤ newOff (Spec.sizeAt s.heap) top U o' := Nat.le_add_right ..
        omega
    · rw [if_neg ho']; omega
  · intro o hr
    have := (wf_lt pre.wf hr).2
    have := hle o
    omega

theorem collectLoop_spec {n pool : Nat} (hn : 0 < n) (U : List Nat) :
    ∀ (fuel : Nat) (s : St β) (low top : Nat), Pre pool s low top →
      U = liveFrom pool s.heap s.roots low → U.length < fuel →
      ∃ s', collectLoop n pool fuel s low top = some (s', top + tot (Spec.sizeAt s.heap) U) ∧
        s'.lastTop = s.lastTop ∧
        Renamed (place (Spec.sizeAt s.heap) low top U) s.heap s.roots s'.heap s'.roots := by
  induction hlen : U.length using Nat.strongRecOn generalizing U with
  | ind k ih =>
    intro fuel s low top pre hU hfuel
    obtain ⟨fuel, rfl⟩ : ∃ f, fuel = f + 1 := ⟨fuel - 1, by omega⟩
    obtain ⟨s', hp, htop', hlast, ren⟩ := pass_spec hn pre hU
    have hobj : ∀ o, Reach s.heap s.roots o → ∃ b, s.heap o = some b := fun o hr => by
      obtain ⟨b, hb, -⟩ := pre.wf.obj o hr; exact ⟨b, hb⟩
    have hUA : Apart (Spec.sizeAt s.heap) U := hU ▸ liveFrom_apart pre.wf low
    have hUs := apart_sorted hUA
    have hUm : ∀ {o}, o ∈ U ↔ o < pool ∧ Reach s.heap s.roots o ∧ low ≤ o := by
      intro o; rw [hU]; exact liveFrom_mem
    have hUmem : ∀ o, Reach s.heap s.roots o → low ≤ o → o ∈ U := by
      intro o hr hl
      have := wf_lt pre.wf hr
      exact hUm.2 ⟨by have := pre.htop; omega, hr, hl⟩
    have hUlow : ∀ u ∈ U, top ≤ u := fun u hu => Nat.le_trans pre.htl (hUm.1 hu).2.2
    rw [collectLoop, hp]
    by_cases hle : n ≤ U.length
    · rw [if_pos hle]
      simp only []
      obtain ⟨w1, w2⟩ := turn_wf (n := n) pre hU
      have wf' := ren.wf pre.wf w1 w2
      have hi : n - 1 < U.length := by omega
      have e : U.getD (n - 1) 0 = U[n - 1] := by
        rw [List.getD_eq_getElem?_getD, List.getElem?_eq_getElem hi]; rfl
      have hlastmem : U[n - 1] ∈ U.take n :=
        List.mem_iff_getElem.2 ⟨n - 1, by simp; omega, by rw [List.getElem_take]⟩
      have hVend : ∀ u ∈ U.take n, u + Spec.sizeAt s.heap u ≤ endAt s.heap U (n - 1) := by
        intro u hu
        unfold endAt
        rw [e]
        rcases List.mem_iff_getElem.1 hu with ⟨j, hj, rfl⟩
        rw [List.getElem_take]
        have hj' : j < n := by simp at hj; omega
        rcases Nat.lt_or_eq_of_le (show j ≤ n - 1 by omega) with h | h
        · have := (List.pairwise_iff_getElem.1 hUA j (n - 1) (by omega) hi h).1; omega
        · subst h; omega
      have hWge : ∀ u ∈ U.drop n, endAt s.heap U (n - 1) ≤ u := by
        intro u hu
        unfold endAt
        rw [e]
        exact apart_take_drop hUA hlastmem hu
      have hVA : Apart (Spec.sizeAt s.heap) (U.take n) := List.Pairwise.sublist (List.take_sublist n U) hUA
      have htl' : top + tot (Spec.sizeAt s.heap) (U.take n) ≤ endAt s.heap U (n - 1) := by
        apply tot_le_last hVA (fun u hu => hUlow u (List.mem_of_mem_take hu)) hVend
        have := hVend _ hlastmem
        have := hUlow _ (List.getElem_mem hi)
        omega
      have hlowend : low ≤ endAt s.heap U (n - 1) := by
        have h1 := hVend _ hlastmem
        have h2 := (hUm.1 (List.getElem_mem hi)).2.2
        omega
      have pre' : Pre pool s' (endAt s.heap U (n - 1)) (top + tot (Spec.sizeAt s.heap) (U.take n)) := by
        refine ⟨htop' ▸ wf', htop' ▸ pre.htop, htl', ?_⟩
        intro x hx hlt
        obtain ⟨o, hr, rfl⟩ := ren.reach_inv hobj hx
        rw [ren.size_eq hobj hr]
        unfold turn at hlt ⊢
        by_cases ho : o ∈ U.take n
        · rw [if_pos ho, newOff_take hUs ho]
          exact newOff_end (apart_sorted hVA) ho
        · rw [if_neg ho] at hlt ⊢
          by_cases hl : low ≤ o
          · rcases mem_take_drop (n := n) (hUmem o hr hl) with h | h
            · exact absurd h ho
            · have := hWge o h; omega
          · have := pre.done o hr (by omega); omega
      have hU' : U.drop n = liveFrom pool s'.heap s'.roots (endAt s.heap U (n - 1)) := by
        apply sorted_ext (List.Pairwise.sublist (List.drop_sublist n U) hUs) (liveFrom_sorted ..)
        intro x
        rw [liveFrom_mem]
        constructor
        · intro hx
          have hxU := List.mem_of_mem_drop hx
          have h1 := hUm.1 hxU
          refine ⟨h1.1, ?_, hWge x hx⟩
          have h2 := ren.reach h1.2.1
          have : turn n (Spec.sizeAt s.heap) top U x = x := by
            unfold turn
            rw [if_neg]
            intro h
            have := take_lt_drop hUs h hx
            omega
          rwa [this] at h2
        · rintro ⟨hxp, hx, hge⟩
          obtain ⟨o, hr, rfl⟩ := ren.reach_inv hobj hx
          unfold turn at hge ⊢
          by_cases ho : o ∈ U.take n
          · rw [if_pos ho] at hge
            rw [newOff_take hUs ho] at hge
            have h1 := newOff_end (sz := Spec.sizeAt s.heap) (top := top) (apart_sorted hVA) ho
            have h2 := (wf_lt pre.wf hr).1
            omega
          · rw [if_neg ho] at hge ⊢
            have hl : low ≤ o := by omega
            rcases mem_take_drop (n := n) (hUmem o hr hl) with h | h
            · exact absurd h ho
            · exact h
      have hsz' : tot (Spec.sizeAt s'.heap) (U.drop n) = tot (Spec.sizeAt s.heap) (U.drop n) := by
        unfold tot
        congr 1
        apply List.map_congr_left
        intro x hx
        have h1 := hUm.1 (List.mem_of_mem_drop hx)
        have : turn n (Spec.sizeAt s.heap) top U x = x := by
          unfold turn
          rw [if_neg]
          intro h
          have := take_lt_drop hUs h hx
          omega
        have h2 := ren.size_eq hobj h1.2.1
        rwa [this] at h2
      obtain ⟨s'', hl'', hlast'', ren''⟩ := ih (U.drop n).length (by simp; omega) (U.drop n) rfl fuel s'
        (endAt s.heap U (n - 1)) (top + tot (Spec.sizeAt s.heap) (U.take n)) pre' hU' (by simp; omega)
      rw [hl'']
      refine ⟨s'', ?_, by rw [hlast'', hlast], ?_⟩
      · rw [hsz']
        congr 2
        conv => rhs; rw [← List.take_append_drop n U, tot_append]
        omega
      · apply ren.trans ren''
        intro o hr
        unfold turn place
        by_cases hl : o < low
        · have ho : o ∉ U.take n := fun h => by
            have := (hUm.1 (List.mem_of_mem_take h)).2.2; omega
          rw [if_neg ho, if_pos hl, if_pos (by omega)]
        · rw [if_neg hl]
          have hoU := hUmem o hr (by omega)
          by_cases ho : o ∈ U.take n
          · rw [if_pos ho, if_pos]
            have h1 := newOff_end (sz := Spec.sizeAt s.heap) (top := top) (apart_sorted hVA) ho
            have h2 := (wf_lt pre.wf hr).1
            rw [newOff_take hUs ho]
            omega
          · rw [if_neg ho]
            rcases mem_take_drop (n := n) hoU with h | h
            · exact absurd h ho
            · rw [if_neg (by have := hWge o h; omega), newOff_drop hUs h]
              unfold newOff
              congr 1
              unfold tot
              congr 1
              apply List.map_congr_left
              intro x hx
              have hx := (List.mem_filter.1 hx).1
              have h1 := hUm.1 (List.mem_of_mem_drop hx)
              have : turn n (Spec.sizeAt s.heap) top U x = x := by
                unfold turn
                rw [if_neg]
                intro h
                have := take_lt_drop hUs h hx
                omega
              have h2 := ren.size_eq hobj h1.2.1
              rwa [this] at h2
    · rw [if_neg hle]
      simp only []
      have hall : U.take n = U := List.take_of_length_le (by omega)
      refine ⟨s', by rw [hall], hlast, ?_⟩
      apply ren.trans (renamed_id (σ := id) (fun _ _ => rfl))
      intro o hr
      simp only [id_eq]
      unfold turn place
      rw [hall]
      by_cases hl : o < low
      · rw [if_pos hl, if_neg]
        intro h
        have := (hUm.1 h).2.2
        omega
      · rw [if_neg hl, if_pos (hUmem o hr (by omega))]

end

abbrev Inv (pool : Nat) (s : St β) : Prop := Spec.PoolOK pool s

/-- Where the collection starts. -/
def startOf (s : St β) (style : Style) : Nat :=
  match effStyle s.lastTop style with
  | .full => 0
  | .incremental => s.lastTop

theorem startOf_cases (s : St β) (style : Style) :
    startOf s style = 0 ∨ startOf s style = s.lastTop := by
  unfold startOf; cases effStyle s.lastTop style <;> simp

theorem len_le_tot {sz : Nat → Nat} {U : List Nat} (h : ∀ u ∈ U, 0 < sz u) : U.length ≤ tot sz U := by
  induction U with
  | nil => simp [tot]
  | cons a U ih =>
    rw [tot_cons]
    have := h a (List.mem_cons_self ..)
    have := ih (fun u hu => h u (List.mem_cons_of_mem _ hu))
    simp; omega

theorem collect_spec [LawfulHeapObj β] {n pool : Nat} (hn : 0 < n) {s : St β} (inv : Inv pool s)
    (style : Style) :
    ∃ s', collect n pool style s = some s' ∧
      s'.top = startOf s style + total s.heap (liveFrom pool s.heap s.roots (startOf s style)) ∧
      s'.lastTop = (if effStyle s.lastTop style = .full then s'.top else s.lastTop) ∧
      Renamed (packed pool s.heap s.roots (startOf s style)) s.heap s.roots s'.heap s'.roots ∧
      Inv pool s' ∧ s'.top ≤ s.top ∧
      (∀ o o', Reach s.heap s.roots o → Reach s.heap s.roots o' → o < o' →
        packed pool s.heap s.roots (startOf s style) o + Spec.sizeAt s.heap o
          ≤ packed pool s.heap s.roots (startOf s style) o') := by
  have hstart : startOf s style ≤ s.top := by
    rcases startOf_cases s style with h | h <;> rw [h]
    · omega
    · exact inv.hlast
  have hdone : ∀ o, Reach s.heap s.roots o → o < startOf s style →
      o + Spec.sizeAt s.heap o ≤ startOf s style := by
    intro o hr hlt
    rcases startOf_cases s style with h | h <;> rw [h] at hlt ⊢
    · omega
    · exact inv.hold o hr hlt
  have pre : Pre pool s (startOf s style) (startOf s style) :=
    ⟨inv.wf, inv.htop, Nat.le_refl _, hdone⟩
  have hUA := liveFrom_apart (pool := pool) inv.wf (startOf s style)
  have hUs := apart_sorted hUA
  have hUmem : ∀ o, Reach s.heap s.roots o → startOf s style ≤ o →
      o ∈ liveFrom pool s.heap s.roots (startOf s style) := by
    intro o hr hl
    have := wf_lt inv.wf hr
    exact liveFrom_mem.2 ⟨by have := inv.htop; omega, hr, hl⟩
  have hUlow : ∀ u ∈ liveFrom pool s.heap s.roots (startOf s style), startOf s style ≤ u :=
    fun u hu => (liveFrom_mem.1 hu).2.2
  have htot : startOf s style + tot (Spec.sizeAt s.heap) (liveFrom pool s.heap s.roots (startOf s style)) ≤ s.top := by
    apply tot_le_last hUA hUlow _ hstart
    intro u hu
    exact (wf_lt inv.wf (liveFrom_mem.1 hu).2.1).2
  have hlen := len_le_tot (sz := Spec.sizeAt s.heap) (U := liveFrom pool s.heap s.roots (startOf s style))
    (fun u hu => (wf_lt inv.wf (liveFrom_mem.1 hu).2.1).1)
  obtain ⟨s1, e1, e2, ren⟩ := collectLoop_spec hn _ (s.top + 2) s _ _ pre rfl (by omega)
  have ren' : Renamed (packed pool s.heap s.roots (startOf s style)) s.heap s.roots s1.heap s1.roots := ren
  have hsep : ∀ o o', Reach s.heap s.roots o → Reach s.heap s.roots o' → o < o' →
        packed pool s.heap s.roots (startOf s style) o + Spec.sizeAt s.heap o
          ≤ packed pool s.heap s.roots (startOf s style) o' := by
    intro o o' hr hr' hlt
    have hsp := inv.wf.sep o o' hr hr' hlt
    unfold packed
    by_cases h1 : o < startOf s style
    · rw [if_pos h1]
      have := hdone o hr h1
      by_cases h2 : o' < startOf s style
      · rw [if_pos h2]; exact hsp
      · rw [if_neg h2]; omega
    · rw [if_neg h1, if_neg (by omega)]
      exact newOff_step hUs (hUmem o hr (by omega)) hlt
  have hend : ∀ o, Reach s.heap s.roots o →
      packed pool s.heap s.roots (startOf s style) o + Spec.sizeAt s.heap o
        ≤ startOf s style + total s.heap (liveFrom pool s.heap s.roots (startOf s style)) := by
    intro o hr
    unfold packed
    by_cases h1 : o < startOf s style
    · rw [if_pos h1]
      have := hdone o hr h1
      omega
    · rw [if_neg h1]
      exact newOff_end hUs (hUmem o hr (by omega))
  have hobj : ∀ o, Reach s.heap s.roots o → ∃ b, s.heap o = some b := fun o hr => by
    obtain ⟨b, hb, -⟩ := inv.wf.obj o hr; exact ⟨b, hb⟩
  have htt : ∀ U, tot (Spec.sizeAt s.heap) U = total s.heap U := fun _ => rfl
  rw [htt] at e1 htot
  have ecol : collect n pool style s = some { s1 with
      top := startOf s style + total s.heap (liveFrom pool s.heap s.roots (startOf s style))
      lastTop := match effStyle s.lastTop style with
        | .full => startOf s style + total s.heap (liveFrom pool s.heap s.roots (startOf s style))
        | .incremental => s1.lastTop } := by
    have : collect n pool style s = match collectLoop n pool (s.top + 2) s (startOf s style) (startOf s style) with
        | none => none
        | some (s', top) => some { s' with
            top := top
            lastTop := match effStyle s.lastTop style with
              | .full => top
              | .incremental => s'.lastTop } := rfl
    rw [this, e1]
  refine ⟨_, ecol, rfl, ?_, ren', ?_, htot, hsep⟩
  · simp only []
    cases effStyle s.lastTop style <;> simp [e2]
  · have wf' := ren'.wf inv.wf hsep hend
    refine ⟨wf', by simp only []; have := inv.htop; omega, ?_, ?_⟩
    · simp only []
      cases hst : effStyle s.lastTop style
      · simp
      · have : startOf s style = s.lastTop := by simp [startOf, hst]
        simp only [e2]; omega
    · simp only []
      cases hst : effStyle s.lastTop style
      · intro o hr _
        simp only []
        obtain ⟨b, hb, h1, h2⟩ := wf'.obj o hr
        rw [sizeAt_some hb]; exact h2
      · intro x hx hlt
        simp only [e2] at hlt ⊢
        have hs : startOf s style = s.lastTop := by simp [startOf, hst]
        obtain ⟨o, hr, rfl⟩ := ren'.reach_inv hobj hx
        rw [ren'.size_eq hobj hr]
        have hlt' : o < s.lastTop := by
          apply Nat.lt_of_not_le
          intro hle
          unfold packed at hlt
          rw [hs, if_neg (by omega)] at hlt
          omega
        have : packed pool s.heap s.roots (startOf s style) o = o := by
          unfold packed; rw [hs, if_pos hlt']
        rw [this]
        exact inv.hold o hr hlt'

end Snek.Gc
