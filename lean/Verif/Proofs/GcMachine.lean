/- The collecting machine simulates the reference machine. -/
import Verif.Proofs.Gc4
import Verif.Spec.GcMachine

namespace Snek.Gc
open HeapObj Spec

variable {β : Type} [HeapObj β]

theorem Inv.obj {pool : Nat} {s : St β} (inv : Inv pool s) (o : Nat) (hr : Reach s.heap s.roots o) :
    ∃ b, s.heap o = some b := by
  obtain ⟨b, hb, -⟩ := inv.wf.obj o hr; exact ⟨b, hb⟩

theorem inv_empty (pool : Nat) : Inv pool (emptySt : St β) := by
  have : ∀ o, ¬ Reach (emptySt : St β).heap (emptySt : St β).roots o := by
    intro o h
    induction h with
    | root h => simp [emptySt] at h
    | step _ _ _ ih => exact ih
  exact ⟨⟨fun o h => absurd h (this o), fun o _ h => absurd h (this o)⟩, Nat.zero_le _, Nat.le_refl _,
    fun o h => absurd h (this o)⟩

section
variable [LawfulHeapObj β]

/-- Live total is unchanged by an order preserving renaming. -/
theorem liveFrom_renamed {pool : Nat} {ρ : Nat → Nat} {h h' : Heap β} {roots roots' : List Nat}
    (ren : Renamed ρ h roots h' roots') (hobj : ∀ o, Reach h roots o → ∃ b, h o = some b)
    (hmono : ∀ o o', Reach h roots o → Reach h roots o' → o < o' → ρ o < ρ o')
    (hp : ∀ o, Reach h roots o → o < pool) (hp' : ∀ o, Reach h roots o → ρ o < pool) :
    liveFrom pool h' roots' 0 = (liveFrom pool h roots 0).map ρ := by
  apply sorted_ext (liveFrom_sorted ..)
  · apply List.pairwise_map.2
    apply List.Pairwise.imp_of_mem _ (liveFrom_sorted pool h roots 0)
    intro a b ha hb hab
    exact hmono a b (liveFrom_mem.1 ha).2.1 (liveFrom_mem.1 hb).2.1 hab
  · intro x
    rw [liveFrom_mem]
    constructor
    · rintro ⟨_, hr, _⟩
      obtain ⟨o, hro, rfl⟩ := ren.reach_inv hobj hr
      exact List.mem_map_of_mem (liveFrom_mem.2 ⟨hp o hro, hro, Nat.zero_le _⟩)
    · intro hx
      obtain ⟨o, ho, rfl⟩ := List.mem_map.1 hx
      have := (liveFrom_mem.1 ho).2.1
      exact ⟨hp' o this, ren.reach this, Nat.zero_le _⟩

theorem total_renamed {pool : Nat} {ρ : Nat → Nat} {h h' : Heap β} {roots roots' : List Nat}
    (ren : Renamed ρ h roots h' roots') (hobj : ∀ o, Reach h roots o → ∃ b, h o = some b)
    (hmono : ∀ o o', Reach h roots o → Reach h roots o' → o < o' → ρ o < ρ o')
    (hp : ∀ o, Reach h roots o → o < pool) (hp' : ∀ o, Reach h roots o → ρ o < pool) :
    total h' (liveFrom pool h' roots' 0) = total h (liveFrom pool h roots 0) := by
  rw [liveFrom_renamed ren hobj hmono hp hp']
  unfold total
  rw [List.map_map]
  congr 1
  apply List.map_congr_left
  intro o ho
  exact ren.size_eq hobj (liveFrom_mem.1 ho).2.1

/-- One collection, in the form used below. -/
theorem collect_ren {n pool : Nat} (hn : 0 < n) {s : St β} (inv : Inv pool s) (style : Style) :
    ∃ s' ρ, collect n pool style s = some s' ∧ Inv pool s' ∧
      Renamed ρ s.heap s.roots s'.heap s'.roots ∧
      (∀ o o', Reach s.heap s.roots o → Reach s.heap s.roots o' → o < o' → ρ o < ρ o') ∧
      total s'.heap (liveFrom pool s'.heap s'.roots 0) = total s.heap (liveFrom pool s.heap s.roots 0) ∧
      (effStyle s.lastTop style = .full → s'.top = total s.heap (liveFrom pool s.heap s.roots 0)) := by
  obtain ⟨s', h1, h2, h3, ren, inv', h4, hsep⟩ := collect_spec hn inv style
  have hmono : ∀ o o', Reach s.heap s.roots o → Reach s.heap s.roots o' → o < o' →
      packed pool s.heap s.roots (startOf s style) o < packed pool s.heap s.roots (startOf s style) o' := by
    intro o o' hr hr' hlt
    have := hsep o o' hr hr' hlt
    have := (wf_lt inv.wf hr).1
    omega
  refine ⟨s', _, h1, inv', ren, hmono, ?_, ?_⟩
  · apply total_renamed ren inv.obj hmono
    · intro o hr
      have := wf_lt inv.wf hr
      have := inv.htop
      omega
    · intro o hr
      have := wf_lt inv'.wf (ren.reach hr)
      have := inv'.htop
      omega
  · intro hf
    have : startOf s style = 0 := by simp [startOf, hf]
    rw [this] at h2
    omega

/-- `snek_alloc` either runs out of memory because the live objects and the new one do
not fit, or hands out the space above a (possibly collected) pool. -/
theorem alloc_spec {n pool : Nat} (hn : 0 < n) {s : St β} (inv : Inv pool s) (sz : Nat) :
    (∃ s', alloc n pool s sz = .oom s' ∧
      pool < total s.heap (liveFrom pool s.heap s.roots 0) + sizeRound sz) ∨
    (∃ s0 ρ, alloc n pool s sz = bump s0 (sizeRound sz) ∧ Inv pool s0 ∧
      Renamed ρ s.heap s.roots s0.heap s0.roots ∧
      (∀ o o', Reach s.heap s.roots o → Reach s.heap s.roots o' → o < o' → ρ o < ρ o') ∧
      s0.top + sizeRound sz ≤ pool) := by
  unfold alloc
  simp only []
  by_cases h0 : pool - s.top < sizeRound sz
  · rw [if_pos h0]
    obtain ⟨s1, ρ1, e1, inv1, ren1, mono1, tot1, -⟩ := collect_ren hn inv .incremental
    rw [e1]
    simp only []
    by_cases h1 : pool - s1.top < sizeRound sz
    · rw [if_pos h1]
      obtain ⟨s2, ρ2, e2, inv2, ren2, mono2, tot2, full2⟩ := collect_ren hn inv1 .full
      rw [e2]
      simp only []
      by_cases h2 : pool - s2.top < sizeRound sz
      · rw [if_pos h2]
        left
        refine ⟨s2, rfl, ?_⟩
        have := full2 (by unfold effStyle; split <;> rfl)
        have := inv2.htop
        omega
      · rw [if_neg h2]
        right
        refine ⟨s2, _, rfl, inv2, ren1.trans ren2 (fun _ _ => rfl), ?_, by have := inv2.htop; omega⟩
        intro o o' hr hr' hlt
        exact mono2 _ _ (ren1.reach hr) (ren1.reach hr') (mono1 o o' hr hr' hlt)
    · rw [if_neg h1]
      right
      exact ⟨s1, ρ1, rfl, inv1, ren1, mono1, by have := inv1.htop; omega⟩
  · rw [if_neg h0]
    right
    exact ⟨s, id, rfl, inv, renamed_id (fun _ _ => rfl), fun _ _ _ _ h => h, by have := inv.htop; omega⟩

/-- The simulation relation: the pool holds the reference heap, up to addresses. -/
def Sim (pool : Nat) (r : RefSt β) (s : St β) : Prop :=
  ∃ ρ, Renamed ρ r.heap r.roots s.heap s.roots ∧
    (∀ x y, Reach r.heap r.roots x → Reach r.heap r.roots y → ρ x = ρ y → x = y) ∧
    (∀ x, Reach r.heap r.roots x → x < r.next ∧ ∃ b, r.heap x = some b) ∧
    Inv pool s

theorem sim_empty (pool : Nat) : Sim pool (refEmpty : RefSt β) emptySt := by
  have : ∀ o, ¬ Reach (refEmpty : RefSt β).heap (refEmpty : RefSt β).roots o := by
    intro o h
    induction h with
    | root h => simp [refEmpty] at h
    | step _ _ _ ih => exact ih
  exact ⟨id, ⟨rfl, fun o _ h => absurd h (this o)⟩, fun o _ h => absurd h (this o),
    fun o h => absurd h (this o), inv_empty pool⟩

theorem sim_collect {n pool : Nat} (hn : 0 < n) {r : RefSt β} {s : St β} (hs : Sim pool r s)
    (style : Style) : ∃ s', collect n pool style s = some s' ∧ Sim pool r s' := by
  obtain ⟨ρ, ren, inj, rok, inv⟩ := hs
  obtain ⟨s', σ, e, inv', ren', mono, -⟩ := collect_ren hn inv style
  refine ⟨s', e, fun x => σ (ρ x), ren.trans ren' (fun _ _ => rfl), ?_, rok, inv'⟩
  intro x y hx hy he
  apply inj x y hx hy
  simp only [] at he
  have hx' := ren.reach hx
  have hy' := ren.reach hy
  rcases Nat.lt_trichotomy (ρ x) (ρ y) with h | h | h
  · have := mono _ _ hx' hy' h; omega
  · exact h
  · have := mono _ _ hy' hx' h; omega

theorem rootAt_mem {roots : List Nat} {i : Nat} (hi : i < roots.length) : rootAt roots i ∈ roots := by
  unfold rootAt
  rw [List.getD_eq_getElem?_getD, List.getElem?_eq_getElem hi]
  simp

theorem rootAt_map {roots : List Nat} {ρ : Nat → Nat} {i : Nat} (hi : i < roots.length) :
    rootAt (roots.map ρ) i = ρ (rootAt roots i) := by
  unfold rootAt
  rw [List.getD_eq_getElem?_getD, List.getD_eq_getElem?_getD, List.getElem?_map, List.getElem?_eq_getElem hi]
  simp

theorem okTemplate_iff {roots : List Nat} {t : β} :
    okTemplate roots t = true ↔ ∀ p ∈ ptrs t, p < roots.length := by
  simp [okTemplate]

theorem okTemplate_map {roots : List Nat} {ρ : Nat → Nat} {t : β} :
    okTemplate (roots.map ρ) t = okTemplate roots t := by
  simp [okTemplate]

/-- Fewer roots or references, same objects: the invariant stays. -/
theorem Inv.mono {pool : Nat} {s s' : St β} (inv : Inv pool s) (htop : s'.top = s.top)
    (hlast : s'.lastTop = s.lastTop)
    (hR : ∀ o, Reach s'.heap s'.roots o → Reach s.heap s.roots o)
    (hsz : ∀ o, Reach s'.heap s'.roots o → ∀ b, s.heap o = some b → ∃ b', s'.heap o = some b' ∧ size b' = size b) :
    Inv pool s' := by
  have hsz' : ∀ o, Reach s'.heap s'.roots o → Spec.sizeAt s'.heap o = Spec.sizeAt s.heap o := by
    intro o hr
    obtain ⟨b, hb⟩ := inv.obj o (hR o hr)
    obtain ⟨b', hb', he⟩ := hsz o hr b hb
    rw [sizeAt_some hb, sizeAt_some hb', he]
  refine ⟨⟨?_, ?_⟩, htop ▸ inv.htop, by rw [htop, hlast]; exact inv.hlast, ?_⟩
  · intro o hr
    obtain ⟨b, hb, h1, h2⟩ := inv.wf.obj o (hR o hr)
    obtain ⟨b', hb', he⟩ := hsz o hr b hb
    exact ⟨b', hb', by omega, by rw [htop]; omega⟩
  · intro o o' hr hr' hlt
    rw [hsz' o hr]
    exact inv.wf.sep o o' (hR o hr) (hR o' hr') hlt
  · intro o hr hlt
    rw [hsz' o hr, hlast]
    exact inv.hold o (hR o hr) (hlast ▸ hlt)

/-- Changing only the roots, to reachable ones. -/
theorem reach_roots {h : Heap β} {roots roots' : List Nat} (hr : ∀ x ∈ roots', Reach h roots x)
    {o : Nat} (ho : Reach h roots' o) : Reach h roots o := by
  induction ho with
  | root hm => exact hr _ hm
  | step _ hb hp ih => exact .step ih hb hp

theorem sim_roots {pool : Nat} {r : RefSt β} {s : St β} {ρ : Nat → Nat}
    (ren : Renamed ρ r.heap r.roots s.heap s.roots)
    (inj : ∀ x y, Reach r.heap r.roots x → Reach r.heap r.roots y → ρ x = ρ y → x = y)
    (rok : ∀ x, Reach r.heap r.roots x → x < r.next ∧ ∃ b, r.heap x = some b)
    (inv : Inv pool s) {roots' : List Nat} (hr : ∀ x ∈ roots', Reach r.heap r.roots x) :
    Sim pool { r with roots := roots' } { s with roots := roots'.map ρ } := by
  refine ⟨ρ, ⟨rfl, ?_⟩, ?_, ?_, ?_⟩
  · intro o b ho hb
    exact ren.objs o b (reach_roots hr ho) hb
  · intro x y hx hy
    exact inj x y (reach_roots hr hx) (reach_roots hr hy)
  · intro x hx
    exact rok x (reach_roots hr hx)
  · have hR : ∀ o, Reach s.heap (roots'.map ρ) o → Reach s.heap s.roots o := by
      intro o ho
      apply reach_roots _ ho
      intro x hx
      obtain ⟨y, hy, rfl⟩ := List.mem_map.1 hx
      exact ren.reach (hr y hy)
    apply inv.mono (s' := { s with roots := roots'.map ρ }) rfl rfl hR
    intro o _ b hb
    exact ⟨b, hb, rfl⟩

/-- Reachability after overwriting a reachable object with references to roots. -/
theorem reach_put {h : Heap β} {roots : List Nat} {o : Nat} {t : β}
    (ht : ∀ p ∈ ptrs t, Reach h roots p) {x : Nat}
    (hx : Reach (setObj h o t) roots x) : Reach h roots x := by
  induction hx with
  | root hm => exact .root hm
  | step _ hb hp ih =>
    rename_i a b p _
    unfold setObj at hb
    by_cases ha : a = o
    · rw [if_pos ha] at hb
      injection hb with hb
      subst hb
      exact ht p hp
    · rw [if_neg ha] at hb
      exact .step ih hb hp

theorem reach_alloc {h : Heap β} {roots : List Nat} {a : Nat} {t : β} {h' : Heap β}
    (hkeep : ∀ o b, Reach h roots o → h' o = some b → h o = some b ∨ o = a)
    (hnew : ∀ b, h' a = some b → b = t)
    (ht : ∀ p ∈ ptrs t, Reach h roots p) {x : Nat}
    (hx : Reach h' (roots ++ [a]) x) : Reach h roots x ∨ x = a := by
  induction hx with
  | root hm =>
    rcases List.mem_append.1 hm with hm | hm
    · exact Or.inl (.root hm)
    · exact Or.inr (List.mem_singleton.1 hm)
  | step _ hb hp ih =>
    rename_i o b p _
    by_cases ho : o = a
    · subst ho
      have := hnew _ hb
      subst this
      exact Or.inl (ht p hp)
    · rcases ih with ih | ih
      · rcases hkeep o b ih hb with h1 | h1
        · exact Or.inl (.step ih h1 hp)
        · exact absurd h1 ho
      · exact absurd ih ho

theorem sizeRound_ge (n : Nat) : n ≤ sizeRound n := by unfold sizeRound; omega

theorem sim_alloc {pool : Nat} {r : RefSt β} {s : St β} (hs : Sim pool r s) {t : β}
    (ht0 : 0 < size t) (ht : okTemplate r.roots t = true) (hfit : s.top + sizeRound (size t) ≤ pool) :
    ∃ a s', bump s (sizeRound (size t)) = .ok a s' ∧
      Sim pool ⟨put r.heap r.next (rename (rootAt r.roots) t), r.roots ++ [r.next], r.next + 1⟩
        { s' with heap := setObj s'.heap a (rename (rootAt s'.roots) t), roots := s'.roots ++ [a] } := by
  obtain ⟨ρ, ren, inj, rok, inv⟩ := hs
  have hok := okTemplate_iff.1 ht
  have hrr : s.roots = r.roots.map ρ := ren.rts
  refine ⟨_, _, rfl, ?_⟩
  simp only []
  -- kept objects
  have hkeep : ∀ o b, Reach s.heap s.roots o → s.heap o = some b →
      setObj (clearRange s.heap s.top (sizeRound (size t))) s.top (rename (rootAt s.roots) t) o = some b := by
    intro o b hr hb
    obtain ⟨b', hb', h1, h2⟩ := inv.wf.obj o hr
    rw [hb] at hb'
    injection hb' with hb'
    subst hb'
    unfold setObj
    rw [if_neg (by omega)]
    simp only [clearRange, hb]
    rw [if_neg (by omega)]
  generalize hH : setObj (clearRange s.heap s.top (sizeRound (size t))) s.top (rename (rootAt s.roots) t) = H at hkeep ⊢
  have hHtop : H s.top = some (rename (rootAt s.roots) t) := by rw [← hH]; simp [setObj]
  have hnoT : ∀ o, Reach s.heap s.roots o → o + Spec.sizeAt s.heap o ≤ s.top ∧ o < s.top := by
    intro o hr
    have := wf_lt inv.wf hr
    omega
  have hptrS : ∀ p ∈ ptrs (rename (rootAt s.roots) t), Reach s.heap s.roots p := by
    intro p hp
    rw [LawfulHeapObj.ptrs_rename] at hp
    obtain ⟨i, hi, rfl⟩ := List.mem_map.1 hp
    apply Reach.root
    apply rootAt_mem
    have := hok i hi
    rw [hrr]; simpa using this
  have hptrR : ∀ p ∈ ptrs (rename (rootAt r.roots) t), Reach r.heap r.roots p := by
    intro p hp
    rw [LawfulHeapObj.ptrs_rename] at hp
    obtain ⟨i, hi, rfl⟩ := List.mem_map.1 hp
    exact .root (rootAt_mem (hok i hi))
  have hRs : ∀ x, Reach H (s.roots ++ [s.top]) x → Reach s.heap s.roots x ∨ x = s.top := by
    intro x hx
    apply reach_alloc _ _ hptrS hx
    · intro o b hr hb
      obtain ⟨b', hb'⟩ := inv.obj o hr
      have := hkeep o b' hr hb'
      rw [this] at hb
      left; rw [hb']; exact hb
    · intro b hb
      rw [hHtop] at hb
      injection hb with hb
      exact hb.symm
  have hRr : ∀ x, Reach (put r.heap r.next (rename (rootAt r.roots) t)) (r.roots ++ [r.next]) x →
      Reach r.heap r.roots x ∨ x = r.next := by
    intro x hx
    apply reach_alloc _ _ hptrR hx
    · intro o b hr hb
      have := (rok o hr).1
      unfold put at hb
      rw [if_neg (by omega)] at hb
      exact Or.inl hb
    · intro b hb
      unfold put at hb
      rw [if_pos rfl] at hb
      injection hb with hb
      exact hb.symm
  have hlt : ∀ x, Reach r.heap r.roots x → x < r.next := fun x hx => (rok x hx).1
  refine ⟨fun x => if x = r.next then s.top else ρ x, ⟨?_, ?_⟩, ?_, ?_, ⟨⟨?_, ?_⟩, ?_, ?_, ?_⟩⟩
  · simp only [List.map_append, List.map_cons, List.map_nil, if_true]
    congr 1
    rw [hrr]
    apply List.map_congr_left
    intro x hx
    rw [if_neg]
    have := hlt x (.root hx); omega
  · intro o b ho hb
    simp only []
    rcases hRr o ho with hr | rfl
    · have hol := hlt o hr
      simp only [put] at hb
      rw [if_neg (by omega)] at hb
      rw [if_neg (by omega)]
      rw [hkeep (ρ o) _ (ren.reach hr) (ren.objs o b hr hb)]
      congr 1
      apply LawfulHeapObj.rename_congr
      intro p hp
      have := hlt p (.step hr hb hp)
      rw [if_neg (by omega)]
    · simp only [put, if_true] at hb
      injection hb with hb
      subst hb
      rw [if_pos rfl, hHtop, LawfulHeapObj.rename_comp]
      congr 1
      apply LawfulHeapObj.rename_congr
      intro i hi
      have := hok i hi
      have h2 := hlt _ (.root (rootAt_mem this))
      rw [if_neg (by omega), hrr, rootAt_map this]
  · intro x y hx hy he
    simp only [] at he
    rcases hRr x hx with hx | rfl <;> rcases hRr y hy with hy | rfl
    · rw [if_neg (by have := hlt x hx; omega), if_neg (by have := hlt y hy; omega)] at he
      exact inj x y hx hy he
    · rw [if_neg (by have := hlt x hx; omega), if_pos rfl] at he
      have := hnoT _ (ren.reach hx)
      omega
    · rw [if_pos rfl, if_neg (by have := hlt y hy; omega)] at he
      have := hnoT _ (ren.reach hy)
      omega
    · rfl
  · intro x hx
    simp only []
    rcases hRr x hx with hx | rfl
    · have := rok x hx
      refine ⟨by omega, ?_⟩
      unfold put
      rw [if_neg (by omega)]
      exact this.2
    · refine ⟨by omega, ?_⟩
      unfold put
      rw [if_pos rfl]
      exact ⟨_, rfl⟩
  · intro x hx
    simp only [] at hx ⊢
    rcases hRs x hx with hx | rfl
    · obtain ⟨b, hb, h1, h2⟩ := inv.wf.obj x hx
      exact ⟨b, hkeep x b hx hb, h1, by omega⟩
    · refine ⟨_, hHtop, ?_, ?_⟩
      · rw [LawfulHeapObj.size_rename]; exact ht0
      · rw [LawfulHeapObj.size_rename]
        have := sizeRound_ge (size t)
        omega
  · intro x y hx hy hxy
    simp only [] at hx hy ⊢
    have hsz : ∀ z, Reach s.heap s.roots z → Spec.sizeAt H z = Spec.sizeAt s.heap z := by
      intro z hz
      obtain ⟨b, hb⟩ := inv.obj z hz
      rw [sizeAt_some hb, sizeAt_some (hkeep z b hz hb)]
    rcases hRs x hx with hx | rfl <;> rcases hRs y hy with hy | rfl
    · rw [hsz x hx]; exact inv.wf.sep x y hx hy hxy
    · rw [hsz x hx]; exact (hnoT x hx).1
    · have := (hnoT y hy).2; omega
    · omega
  · simp only []; omega
  · simp only []; have := inv.hlast; omega
  · intro x hx hl
    simp only [] at hx hl ⊢
    rcases hRs x hx with hx | rfl
    · obtain ⟨b, hb⟩ := inv.obj x hx
      rw [sizeAt_some (hkeep x b hx hb), ← sizeAt_some hb]
      exact inv.hold x hx hl
    · have := inv.hlast; omega

theorem sim_store {pool : Nat} {r : RefSt β} {s : St β} (hs : Sim pool r s) {i : Nat} {t b : β}
    (hi : i < r.roots.length) (ht : okTemplate r.roots t = true)
    (hb : s.heap (rootAt s.roots i) = some b) (hsz : size t = size b) :
    Sim pool { r with heap := put r.heap (rootAt r.roots i) (rename (rootAt r.roots) t) }
      { s with heap := setObj s.heap (rootAt s.roots i) (rename (rootAt s.roots) t) } := by
  obtain ⟨ρ, ren, inj, rok, inv⟩ := hs
  have hok := okTemplate_iff.1 ht
  have hrr : s.roots = r.roots.map ρ := ren.rts
  have hptrS : ∀ p ∈ ptrs (rename (rootAt s.roots) t), Reach s.heap s.roots p := by
    intro p hp
    rw [LawfulHeapObj.ptrs_rename] at hp
    obtain ⟨j, hj, rfl⟩ := List.mem_map.1 hp
    apply Reach.root
    apply rootAt_mem
    have := hok j hj
    rw [hrr]; simpa using this
  have hptrR : ∀ p ∈ ptrs (rename (rootAt r.roots) t), Reach r.heap r.roots p := by
    intro p hp
    rw [LawfulHeapObj.ptrs_rename] at hp
    obtain ⟨j, hj, rfl⟩ := List.mem_map.1 hp
    exact .root (rootAt_mem (hok j hj))
  have hRr : ∀ x, Reach (put r.heap (rootAt r.roots i) (rename (rootAt r.roots) t)) r.roots x →
      Reach r.heap r.roots x := fun x hx => reach_put hptrR hx
  have hRs : ∀ x, Reach (setObj s.heap (rootAt s.roots i) (rename (rootAt s.roots) t)) s.roots x →
      Reach s.heap s.roots x := fun x hx => reach_put hptrS hx
  have hx0 : Reach r.heap r.roots (rootAt r.roots i) := .root (rootAt_mem hi)
  have hxs : rootAt s.roots i = ρ (rootAt r.roots i) := by rw [hrr, rootAt_map hi]
  refine ⟨ρ, ⟨hrr, ?_⟩, ?_, ?_, ?_⟩
  · intro o b' ho hb'
    have hr := hRr o ho
    simp only [] at hb' ⊢
    unfold put at hb'
    unfold setObj
    by_cases he : o = rootAt r.roots i
    · rw [if_pos he] at hb'
      injection hb' with hb'
      subst hb'
      rw [if_pos (by rw [hxs, he]), LawfulHeapObj.rename_comp]
      congr 1
      apply LawfulHeapObj.rename_congr
      intro j hj
      rw [hrr, rootAt_map (hok j hj)]
    · rw [if_neg he] at hb'
      rw [if_neg, ren.objs o b' hr hb']
      intro h
      rw [hxs] at h
      exact he (inj _ _ hr hx0 h)
  · intro x y hx hy
    exact inj x y (hRr x hx) (hRr y hy)
  · intro x hx
    have := rok x (hRr x hx)
    refine ⟨this.1, ?_⟩
    simp only [put]
    by_cases he : x = rootAt r.roots i
    · rw [if_pos he]; exact ⟨_, rfl⟩
    · rw [if_neg he]; exact this.2
  · apply inv.mono (s' := { s with heap := setObj s.heap (rootAt s.roots i) (rename (rootAt s.roots) t) }) rfl rfl hRs
    intro o ho b' hb'
    simp only [setObj]
    by_cases he : o = rootAt s.roots i
    · rw [if_pos he]
      refine ⟨_, rfl, ?_⟩
      rw [LawfulHeapObj.size_rename]
      rw [he, hb] at hb'
      injection hb' with hb'
      rw [← hb']; exact hsz
    · rw [if_neg he]; exact ⟨b', hb', rfl⟩

/-- How the outcome of one operation relates to that of the reference machine. -/
inductive StepRel (pool : Nat) : MRes (St β) β → MRes (RefSt β) β → Prop
  | ok {out s r} : Sim pool r s → StepRel pool (.ok out s) (.ok out r)
  | bad : StepRel pool .bad .bad
  | oom {x} : StepRel pool .oom x

theorem step_sim {n pool : Nat} (hn : 0 < n) {r : RefSt β} {s : St β} (hs : Sim pool r s) (op : MOp β) :
    StepRel pool (mstep n pool s op) (refStep r op) := by
  have hs0 := hs
  obtain ⟨ρ, ren, inj, rok, inv⟩ := hs
  have hrr : s.roots = r.roots.map ρ := ren.rts
  have hlen : s.roots.length = r.roots.length := by rw [hrr]; simp
  have hheap : ∀ i, i < r.roots.length → ∃ b, r.heap (rootAt r.roots i) = some b ∧
      s.heap (rootAt s.roots i) = some (rename ρ b) := by
    intro i hi
    have hr : Reach r.heap r.roots (rootAt r.roots i) := .root (rootAt_mem hi)
    obtain ⟨-, b, hb⟩ := rok _ hr
    refine ⟨b, hb, ?_⟩
    rw [hrr, rootAt_map hi]
    exact ren.objs _ b hr hb
  have hokt : ∀ t : β, okTemplate s.roots t = okTemplate r.roots t := by
    intro t; rw [hrr, okTemplate_map]
  cases op with
  | alloc t =>
    simp only [mstep, refStep, hokt]
    by_cases hc : size t = 0 ∨ okTemplate r.roots t = false
    · rw [if_pos hc, if_pos hc]; exact .bad
    · rw [if_neg hc, if_neg hc]
      have h0 : 0 < size t := by omega
      have ht : okTemplate r.roots t = true := by
        cases h : okTemplate r.roots t with
        | true => rfl
        | false => exact absurd (Or.inr h) hc
      rcases alloc_spec hn inv (size t) with ⟨s', e, -⟩ | ⟨s0, σ, e, inv0, ren0, mono0, hfit⟩
      · rw [e]; exact .oom
      · have hs1 : Sim pool r s0 := by
          refine ⟨fun x => σ (ρ x), ren.trans ren0 (fun _ _ => rfl), ?_, rok, inv0⟩
          intro x y hx hy he
          apply inj x y hx hy
          simp only [] at he
          rcases Nat.lt_trichotomy (ρ x) (ρ y) with h | h | h
          · have := mono0 _ _ (ren.reach hx) (ren.reach hy) h; omega
          · exact h
          · have := mono0 _ _ (ren.reach hy) (ren.reach hx) h; omega
        obtain ⟨a, s', e', hsim⟩ := sim_alloc hs1 h0 ht hfit
        rw [e, e']
        exact .ok hsim
  | load i k =>
    simp only [mstep, refStep, hlen]
    by_cases hi : i < r.roots.length
    · rw [if_pos hi, if_pos hi]
      obtain ⟨b, hb, hb'⟩ := hheap i hi
      rw [hb, hb']
      simp only [LawfulHeapObj.ptrs_rename, List.getElem?_map]
      cases hk : (ptrs b)[k]? with
      | none => exact .bad
      | some p =>
        simp only [Option.map_some]
        apply StepRel.ok
        have := sim_roots ren inj rok inv (roots' := r.roots ++ [p]) (by
          intro x hx
          rcases List.mem_append.1 hx with hx | hx
          · exact .root hx
          · rw [List.mem_singleton.1 hx]
            exact .step (.root (rootAt_mem hi)) hb (List.mem_of_getElem? hk))
        rw [List.map_append, ← hrr] at this
        exact this
    · rw [if_neg hi, if_neg hi]; exact .bad
  | store i t =>
    simp only [mstep, refStep, hlen, hokt]
    by_cases hc : i < r.roots.length ∧ okTemplate r.roots t = true
    · rw [if_pos hc, if_pos hc]
      obtain ⟨b, hb, hb'⟩ := hheap i hc.1
      rw [hb, hb']
      simp only [LawfulHeapObj.size_rename]
      by_cases hz : size t = size b
      · rw [if_pos hz, if_pos hz]
        apply StepRel.ok
        exact sim_store hs0 hc.1 hc.2 hb' (by rw [LawfulHeapObj.size_rename]; exact hz)
      · rw [if_neg hz, if_neg hz]; exact .bad
    · rw [if_neg hc, if_neg hc]; exact .bad
  | keep sel =>
    simp only [mstep, refStep, hlen]
    by_cases hc : (sel.all fun x => decide (x < r.roots.length)) = true
    · rw [if_pos hc, if_pos hc]
      have hc' : ∀ x ∈ sel, x < r.roots.length := by simpa using hc
      apply StepRel.ok
      have := sim_roots ren inj rok inv (roots' := sel.map (rootAt r.roots)) (by
        intro x hx
        obtain ⟨i, hi, rfl⟩ := List.mem_map.1 hx
        exact .root (rootAt_mem (hc' i hi)))
      rw [List.map_map] at this
      have e : sel.map (ρ ∘ rootAt r.roots) = sel.map (rootAt s.roots) := by
        apply List.map_congr_left
        intro i hi
        rw [hrr, rootAt_map (hc' i hi)]; rfl
      rw [e] at this
      exact this
    · rw [if_neg hc, if_neg hc]; exact .bad
  | look i =>
    simp only [mstep, refStep, hlen]
    by_cases hi : i < r.roots.length
    · rw [if_pos hi, if_pos hi]
      obtain ⟨b, hb, hb'⟩ := hheap i hi
      rw [hb, hb']
      have : shape (rename ρ b) = shape b := by
        unfold shape
        rw [LawfulHeapObj.rename_comp]
      simp only [this]
      exact .ok hs0
    · rw [if_neg hi, if_neg hi]; exact .bad
  | same i j =>
    simp only [mstep, refStep, hlen]
    by_cases hc : i < r.roots.length ∧ j < r.roots.length
    · rw [if_pos hc, if_pos hc]
      have : decide (rootAt s.roots i = rootAt s.roots j) = decide (rootAt r.roots i = rootAt r.roots j) := by
        rw [hrr, rootAt_map hc.1, rootAt_map hc.2]
        apply decide_eq_decide.2
        constructor
        · exact inj _ _ (.root (rootAt_mem hc.1)) (.root (rootAt_mem hc.2))
        · intro h; rw [h]
      rw [this]
      exact .ok hs0
    · rw [if_neg hc, if_neg hc]; exact .bad
  | collect style =>
    simp only [mstep, refStep]
    obtain ⟨s', e, hs'⟩ := sim_collect hn hs0 style
    rw [e]
    exact .ok hs'

theorem run_sim {n pool : Nat} (hn : 0 < n) {r : RefSt β} {s : St β} (hs : Sim pool r s)
    (ops : List (MOp β)) :
    ((mrun n pool s ops).2 = .oom ∧ (mrun n pool s ops).1 <+: (refRun r ops).1) ∨
    ((mrun n pool s ops).1 = (refRun r ops).1 ∧ StepRel pool (mrun n pool s ops).2 (refRun r ops).2) := by
  induction ops generalizing r s with
  | nil => exact Or.inr ⟨rfl, .ok hs⟩
  | cons op ops ih =>
    have h := step_sim hn hs op
    simp only [mrun, refRun]
    generalize mstep n pool s op = x at h
    generalize refStep r op = y at h
    cases h with
    | ok hs' =>
      simp only []
      rcases ih hs' with ⟨h1, h2⟩ | ⟨h1, h2⟩
      · left; exact ⟨h1, by simpa using h2⟩
      · right; exact ⟨by rw [h1], h2⟩
    | bad => exact Or.inr ⟨rfl, .bad⟩
    | oom => exact Or.inl ⟨rfl, List.nil_prefix⟩

end

end Snek.Gc
