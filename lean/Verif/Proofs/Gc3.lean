/- One turn of the collection loop, the loop, and the whole collection. -/
import Verif.Proofs.Gc2

namespace Snek.Gc
open HeapObj Spec

variable {β : Type} [HeapObj β]

theorem sorted_ext {l k : List Nat} (hl : l.Pairwise (· < ·)) (hk : k.Pairwise (· < ·))
    (h : ∀ x, x ∈ l ↔ x ∈ k) : l = k := by
  induction l generalizing k with
  | nil =>
    cases k with
    | nil => rfl
    | cons b k => exact absurd ((h b).2 (List.mem_cons_self ..)) (by simp)
  | cons a l ih =>
    cases k with
    | nil => exact absurd ((h a).1 (List.mem_cons_self ..)) (by simp)
    | cons b k =>
      have hl' := List.pairwise_cons.1 hl
      have hk' := List.pairwise_cons.1 hk
      have hab : a = b := by
        rcases List.mem_cons.1 ((h a).1 (List.mem_cons_self ..)) with h1 | h1
        · exact h1
        · rcases List.mem_cons.1 ((h b).2 (List.mem_cons_self ..)) with h2 | h2
          · exact h2.symm
          · have := hk'.1 a h1; have := hl'.1 b h2; omega
      subst hab
      congr 1
      apply ih hl'.2 hk'.2
      intro x
      constructor
      · intro hx
        rcases List.mem_cons.1 ((h x).1 (List.mem_cons_of_mem _ hx)) with h1 | h1
        · subst h1; have := hl'.1 x hx; omega
        · exact h1
      · intro hx
        rcases List.mem_cons.1 ((h x).2 (List.mem_cons_of_mem _ hx)) with h1 | h1
        · subst h1; have := hk'.1 x hx; omega
        · exact h1

theorem liveFrom_mem {pool : Nat} {h : Heap β} {roots : List Nat} {low o : Nat} :
    o ∈ liveFrom pool h roots low ↔ o < pool ∧ Reach h roots o ∧ low ≤ o := by
  simp [liveFrom]

theorem liveFrom_sorted (pool : Nat) (h : Heap β) (roots : List Nat) (low : Nat) :
    (liveFrom pool h roots low).Pairwise (· < ·) := by
  unfold liveFrom
  apply List.Pairwise.filter
  exact List.pairwise_lt_range

theorem wf_lt {h : Heap β} {roots : List Nat} {top : Nat} (wf : WF h roots top) {o : Nat}
    (hr : Reach h roots o) : 0 < sizeAt h o ∧ o + sizeAt h o ≤ top := by
  obtain ⟨b, hb, h1, h2⟩ := wf.obj o hr
  rw [sizeAt_some hb]; exact ⟨h1, h2⟩

theorem liveFrom_apart {pool : Nat} {h : Heap β} {roots : List Nat} {top : Nat} (wf : WF h roots top)
    (low : Nat) : Apart (sizeAt h) (liveFrom pool h roots low) := by
  apply List.Pairwise.imp_of_mem _ (liveFrom_sorted pool h roots low)
  intro a b ha hb hab
  exact ⟨wf.sep a b (liveFrom_mem.1 ha).2.1 (liveFrom_mem.1 hb).2.1 hab, hab⟩

/-- Hypotheses at the top of the collection loop. -/
structure Pre (pool : Nat) (s : St β) (low top : Nat) : Prop where
  wf : WF s.heap s.roots s.top
  htop : s.top ≤ pool
  htl : top ≤ low
  done : ∀ o, Reach s.heap s.roots o → o < low → o + sizeAt s.heap o ≤ top

/-- Renaming done by one turn. -/
def turn (n : Nat) (sz : Nat → Nat) (top : Nat) (U : List Nat) (o : Nat) : Nat :=
  if o ∈ U.take n then newOff sz top U o else o

theorem mem_take_drop {l : List Nat} {n x : Nat} (h : x ∈ l) : x ∈ l.take n ∨ x ∈ l.drop n := by
  rw [← List.take_append_drop n l] at h
  exact List.mem_append.1 h

theorem take_lt_drop {l : List Nat} (hs : l.Pairwise (· < ·)) {n x y : Nat} (hx : x ∈ l.take n)
    (hy : y ∈ l.drop n) : x < y := by
  rw [← List.take_append_drop n l] at hs
  exact (List.pairwise_append.1 hs).2.2 x hx y hy

theorem apart_take_drop {sz : Nat → Nat} {l : List Nat} (hs : Apart sz l) {n x y : Nat}
    (hx : x ∈ l.take n) (hy : y ∈ l.drop n) : x + sz x ≤ y := by
  unfold Apart at hs
  rw [← List.take_append_drop n l] at hs
  exact ((List.pairwise_append.1 hs).2.2 x hx y hy).1

theorem apart_sorted {sz : Nat → Nat} {l : List Nat} (hs : Apart sz l) : l.Pairwise (· < ·) :=
  hs.imp (fun h => h.2)

theorem newOff_take {sz : Nat → Nat} {top n o : Nat} {U : List Nat} (hs : U.Pairwise (· < ·))
    (ho : o ∈ U.take n) : newOff sz top U o = newOff sz top (U.take n) o := by
  unfold newOff
  have : U.filter (· < o) = (U.take n).filter (· < o) := by
    conv => lhs; rw [← List.take_append_drop n U]
    rw [List.filter_append, filter_lt_nil (l := U.drop n), List.append_nil]
    intro x hx
    exact Nat.le_of_lt (take_lt_drop hs ho hx)
  rw [this]

theorem newOff_drop {sz : Nat → Nat} {top n o : Nat} {U : List Nat} (hs : U.Pairwise (· < ·))
    (ho : o ∈ U.drop n) : newOff sz top U o = newOff sz (top + tot sz (U.take n)) (U.drop n) o := by
  unfold newOff
  have : U.filter (· < o) = U.take n ++ (U.drop n).filter (· < o) := by
    conv => lhs; rw [← List.take_append_drop n U]
    rw [List.filter_append, filter_lt_all (l := U.take n)]
    intro x hx
    exact take_lt_drop hs hx ho
  rw [this, tot_append]
  omega

theorem newOff_le {sz : Nat → Nat} {top o : Nat} {U : List Nat} (ha : Apart sz U)
    (hlow : ∀ u ∈ U, top ≤ u) (ho : o ∈ U) : newOff sz top U o ≤ o := by
  unfold newOff
  apply tot_le_last (List.Pairwise.filter _ ha)
  · intro u hu; exact hlow u (List.mem_filter.1 hu).1
  · intro u hu
    have h1 := (List.mem_filter.1 hu)
    have h2 : u < o := by simpa using h1.2
    rcases List.mem_iff_getElem.1 h1.1 with ⟨i, hi, rfl⟩
    rcases List.mem_iff_getElem.1 ho with ⟨j, hj, rfl⟩
    have hs := apart_sorted ha
    have hij : i < j := by
      apply Nat.lt_of_not_le
      intro hle
      rcases Nat.lt_or_eq_of_le hle with h | h
      · have := List.pairwise_iff_getElem.1 hs j i hj hi h; omega
      · subst h; omega
    exact (List.pairwise_iff_getElem.1 ha i j hi hj hij).1
  · exact hlow o ho

theorem newOff_step {sz : Nat → Nat} {top o o' : Nat} {U : List Nat} (hs : U.Pairwise (· < ·))
    (ho : o ∈ U) (hlt : o < o') : newOff sz top U o + sz o ≤ newOff sz top U o' := by
  unfold newOff
  have key : ∀ l : List Nat, l.Pairwise (· < ·) → o ∈ l →
      tot sz (l.filter (· < o)) + sz o ≤ tot sz (l.filter (· < o')) := by
    intro l
    induction l with
    | nil => intro _ h; simp at h
    | cons a l ih =>
      intro hp hm
      have hc := List.pairwise_cons.1 hp
      rcases List.mem_cons.1 hm with rfl | hm
      · rw [filter_lt_nil (l := o :: l), List.filter_cons_of_pos (by simpa using hlt), tot_cons]
        · simp [tot]
        · intro x hx
          rcases List.mem_cons.1 hx with rfl | hx
          · omega
          · exact Nat.le_of_lt (hc.1 x hx)
      · have := hc.1 o hm
        rw [List.filter_cons_of_pos (by simpa using this), List.filter_cons_of_pos (by simp; omega),
          tot_cons, tot_cons]
        have := ih hc.2 hm
        omega
  have := key U hs ho
  omega

theorem newOff_end {sz : Nat → Nat} {top o : Nat} {U : List Nat} (hs : U.Pairwise (· < ·))
    (ho : o ∈ U) : newOff sz top U o + sz o ≤ top + tot sz U := by
  have hb : ∃ m, o < m ∧ ∀ x ∈ U, x < m := by
    clear hs ho
    induction U with
    | nil => exact ⟨o + 1, by omega, by simp⟩
    | cons a U ih =>
      obtain ⟨m, h1, h2⟩ := ih
      refine ⟨m + a + 1, by omega, ?_⟩
      intro x hx
      rcases List.mem_cons.1 hx with rfl | hx
      · omega
      · have := h2 x hx; omega
  obtain ⟨m, h1, h2⟩ := hb
  have := newOff_step (sz := sz) (top := top) hs ho h1
  unfold newOff at this
  rw [filter_lt_all h2] at this
  unfold newOff
  omega

theorem findChunk_hit {tab : List Chunk} (hs : SortedTab tab) {c i : Nat} (hci : c ≤ i)
    (hi : i < tab.length) :
    findChunk tab (tab.getD i ⟨0, 0⟩).old c tab.length = i := by
  obtain ⟨h1, h2, h3, h4⟩ := findChunk_spec tab hs (tab.getD i ⟨0, 0⟩).old c tab.length (by omega) (Nat.le_refl _)
  apply Nat.le_antisymm
  · apply Nat.le_of_not_lt
    intro hlt
    have := h3 i hci hlt
    omega
  · apply Nat.le_of_not_lt
    intro hlt
    have h5 := h4 _ (Nat.le_refl _) (by omega)
    have h6 := hs _ i hlt hi
    omega

theorem renamed_id [LawfulHeapObj β] {h : Heap β} {roots : List Nat} {σ : Nat → Nat}
    (hσ : ∀ o, Reach h roots o → σ o = o) : Renamed σ h roots h roots := by
  constructor
  · have : roots.map σ = roots.map id := by
      apply List.map_congr_left
      intro r hr
      exact hσ r (.root hr)
    simpa using this.symm
  · intro o b hr hb
    rw [hσ o hr, hb]
    congr 1
    rw [LawfulHeapObj.rename_congr σ id b, LawfulHeapObj.rename_id]
    intro p hp
    exact hσ p (.step hr hb hp)

theorem pass_spec [LawfulHeapObj β] {n pool : Nat} (hn : 0 < n) {s : St β} {low top : Nat}
    (pre : Pre pool s low top) {U : List Nat} (hU : U = liveFrom pool s.heap s.roots low) :
    ∃ s', pass n pool s low top = some (s', top + tot (sizeAt s.heap) (U.take n),
        if n ≤ U.length then some (endAt s.heap U (n - 1)) else none) ∧
      s'.top = s.top ∧ s'.lastTop = s.lastTop ∧
      Renamed (turn n (sizeAt s.heap) top U) s.heap s.roots s'.heap s'.roots := by
  obtain ⟨m, hm, hmR, hmT⟩ := markWalk_spec (low := low) hn pre.wf pre.htop ⟨fun _ => false, ⟨[], s.top⟩⟩ s.roots
    (fun o ho => .root ho) (by simp) (by simp) (fun r hr => Or.inr hr) (TabInv.init n pool low s.top hn s.heap)
  have hM : marked pool low m.busy = U := by
    rw [hU]
    unfold marked liveFrom
    apply List.filter_congr
    intro x _
    have := hmR x
    by_cases hx : m.busy x = true
    · simp [hx, this.1 hx]
    · have hx' : ¬ Reach s.heap s.roots x := fun h => hx (this.2 h)
      simp [hx, hx']
  have htab := hmT.tab
  have hhigh := hmT.high
  rw [hM] at htab hhigh
  have hUA : Apart (sizeAt s.heap) U := hU ▸ liveFrom_apart pre.wf low
  have hUs := apart_sorted hUA
  have hUm : ∀ {o}, o ∈ U ↔ o < pool ∧ Reach s.heap s.roots o ∧ low ≤ o := by
    intro o; rw [hU]; exact liveFrom_mem
  have hUmem : ∀ o, Reach s.heap s.roots o → low ≤ o → o ∈ U := by
    intro o hr hl
    have := wf_lt pre.wf hr
    exact hUm.2 ⟨by have := pre.htop; omega, hr, hl⟩
  have hUlow : ∀ u ∈ U, top ≤ u := fun u hu => Nat.le_trans pre.htl (hUm.1 hu).2.2
  generalize hsz : sizeAt s.heap = sz at *
  have htab' : m.tab.tab = (U.take n).map (fun u => (⟨u, sz u⟩ : Chunk)) := by
    rw [htab, ← List.map_take, ← hsz]; rfl
  have hVA : Apart sz (U.take n) := by
    unfold Apart; exact List.Pairwise.sublist (List.take_sublist n U) hUA
  have hVs := apart_sorted hVA
  have hVlow : ∀ u ∈ U.take n, top ≤ u := fun u hu => hUlow u (List.mem_of_mem_take hu)
  obtain ⟨c, hc1, hc2, hc3, hc4⟩ := skipFixed_spec sz (U.take n) top hVA hVlow
  have hlenV : (U.take n).length = min n U.length := by simp
  unfold pass
  rw [hm]
  simp only [htab', hc1]
  by_cases hcn : c = n
  · -- nothing moves, table full
    rw [if_pos hcn]
    subst hcn
    have hle : c ≤ U.length := by omega
    have e : (U.take c).take c = U.take c := List.take_of_length_le (by omega)
    rw [e] at hc3 ⊢
    rw [hhigh, if_pos hle]
    refine ⟨s, by rw [if_pos hle], rfl, rfl, ?_⟩
    apply renamed_id
    intro o hr
    unfold turn
    by_cases ho : o ∈ U.take c
    · rw [if_pos ho, newOff_take hUs ho]
      exact (hc3 o ho).symm
    · rw [if_neg ho]
  rw [if_neg hcn]
  -- the objects to move
  have hdrop : ((U.take n).map (fun u => (⟨u, sz u⟩ : Chunk))).drop c
      = ((U.take n).drop c).map (fun u => ⟨u, sz u⟩) := by rw [List.map_drop]
  have hWA : Apart sz ((U.take n).drop c) := List.Pairwise.sublist (List.drop_sublist c _) hVA
  have hWobj : ∀ u ∈ (U.take n).drop c, ∃ b, s.heap u = some b ∧ size b = sz u ∧ 0 < sz u := by
    intro u hu
    have huU := List.mem_of_mem_take (List.mem_of_mem_drop hu)
    obtain ⟨b, hb, h1, -⟩ := pre.wf.obj u (hUm.1 huU).2.1
    refine ⟨b, hb, ?_⟩
    rw [← hsz, sizeAt_some hb]
    exact ⟨rfl, h1⟩
  obtain ⟨h1, hcp1, hcp2, hcp3⟩ := copyAll_spec sz ((U.take n).drop c) s.heap
    (top + tot sz ((U.take n).take c)) hWA hc4
    (fun u hu => by obtain ⟨b, -, -, h⟩ := hWobj u hu; exact h)
    (fun u hu => by obtain ⟨b, hb, h, -⟩ := hWobj u hu; exact ⟨b, hb, h⟩)
  rw [hdrop, hcp1]
  have htopsum : top + tot sz ((U.take n).take c) + tot sz ((U.take n).drop c) = top + tot sz (U.take n) := by
    conv => rhs; rw [← List.take_append_drop c (U.take n), tot_append]
    omega
  have hnext : (if ¬ ((U.take n).map (fun u => (⟨u, sz u⟩ : Chunk))).length = n then (none : Option Nat) else some m.tab.high)
      = if n ≤ U.length then some (endAt s.heap U (n - 1)) else none := by
    by_cases hle : n ≤ U.length
    · rw [if_pos hle, if_neg (by simp; omega), hhigh, if_pos hle]
    · rw [if_neg hle, if_pos (by simp; omega)]
  simp only [htopsum]
  by_cases hcl : c < (U.take n).length
  · rw [if_pos (by simpa using hcl)]
    -- the relocation map
    generalize hf : moveMap (((U.take n).map (fun u => (⟨u, sz u⟩ : Chunk))).take c ++
        ((U.take n).drop c).map (fun u => ⟨u, newOff sz (top + tot sz ((U.take n).take c)) ((U.take n).drop c) u⟩))
        c ((((U.take n).map (fun u => (⟨u, sz u⟩ : Chunk))).getD c ⟨0, 0⟩).old) m.tab.high = f
    have hlow1 : (((U.take n).map (fun u => (⟨u, sz u⟩ : Chunk))).getD c ⟨0, 0⟩).old = (U.take n)[c] := by
      rw [List.getD_eq_getElem?_getD, List.getElem?_map, List.getElem?_eq_getElem hcl]; rfl
    have hidx : ∀ o ∈ (U.take n).drop c, (U.take n)[c] ≤ o := by
      intro o ho
      rw [List.drop_eq_getElem_cons hcl] at ho
      rcases List.mem_cons.1 ho with h | h
      · omega
      · have : Apart sz ((U.take n).drop c) := hWA
        rw [List.drop_eq_getElem_cons hcl] at this
        have := ((List.pairwise_cons.1 this).1 o h).2
        omega
    have hltHigh : ∀ o ∈ U.take n, o < m.tab.high := by
      intro o ho
      rw [hhigh]
      have hoU := List.mem_of_mem_take ho
      by_cases hle : n ≤ U.length
      · rw [if_pos hle]
        have hi : n - 1 < U.length := by omega
        have e : U.getD (n - 1) 0 = U[n - 1] := by
          rw [List.getD_eq_getElem?_getD, List.getElem?_eq_getElem hi]; rfl
        unfold endAt
        rw [e, hsz]
        have hpos := (wf_lt pre.wf (hUm.1 (List.getElem_mem hi)).2.1).1
        rw [hsz] at hpos
        rcases List.mem_iff_getElem.1 ho with ⟨j, hj, rfl⟩
        have hj' : j < n := by omega
        rw [List.getElem_take]
        rcases Nat.lt_or_eq_of_le (show j ≤ n - 1 by omega) with h | h
        · have := List.pairwise_iff_getElem.1 hUs j (n - 1) (by omega) hi h; omega
        · subst h; omega
      · rw [if_neg hle]
        have := wf_lt pre.wf (hUm.1 hoU).2.1
        omega
    have hgeHigh : ∀ o ∈ U.drop n, m.tab.high ≤ o := by
      intro o ho
      have hle : n ≤ U.length := by
        apply Nat.le_of_not_lt
        intro h
        rw [List.drop_eq_nil_of_le (by omega)] at ho
        simp at ho
      rw [hhigh, if_pos hle]
      have hi : n - 1 < U.length := by omega
      have e : U.getD (n - 1) 0 = U[n - 1] := by
        rw [List.getD_eq_getElem?_getD, List.getElem?_eq_getElem hi]; rfl
      unfold endAt
      rw [e, hsz]
      have : U[n - 1] ∈ U.take n := by
        apply List.mem_iff_getElem.2
        exact ⟨n - 1, by omega, by rw [List.getElem_take]⟩
      exact apart_take_drop hUA this ho
    -- f is the turn renaming on reachable objects
    have hmoved : ∀ o ∈ (U.take n).drop c,
        f o = newOff sz (top + tot sz ((U.take n).take c)) ((U.take n).drop c) o := by
      intro o ho
      have h1 := hidx o ho
      have h2 := hltHigh o (List.mem_of_mem_drop ho)
      rw [← hf]
      unfold moveMap
      rw [hlow1, if_neg (by omega)]
      rcases List.mem_iff_getElem.1 ho with ⟨j, hj, hjo⟩
      generalize hT : (((U.take n).map (fun u => (⟨u, sz u⟩ : Chunk))).take c ++
        ((U.take n).drop c).map (fun u => (⟨u, newOff sz (top + tot sz ((U.take n).take c)) ((U.take n).drop c) u⟩ : Chunk))) = T
      have hTlen : T.length = (U.take n).length := by rw [← hT]; simp; omega
      have hTold : ∀ i, i < (U.take n).length → (T.getD i ⟨0, 0⟩).old = (U.take n).getD i 0 := by
        intro i hi
        rw [← hT, List.getD_eq_getElem?_getD, List.getD_eq_getElem?_getD]
        by_cases hic : i < c
        · rw [List.getElem?_append_left (by simp; omega), List.getElem?_take_of_lt hic, List.getElem?_map,
            List.getElem?_eq_getElem hi]; rfl
        · have hl : (((U.take n).map (fun u => (⟨u, sz u⟩ : Chunk))).take c).length = c := by simp; omega
          rw [List.getElem?_append_right (by omega), hl, List.getElem?_map, List.getElem?_drop,
            show c + (i - c) = i by omega, List.getElem?_eq_getElem hi]; rfl
      have hTs : SortedTab T := by
        intro a b hab hb
        rw [hTlen] at hb
        rw [hTold a (by omega), hTold b hb, List.getD_eq_getElem?_getD, List.getD_eq_getElem?_getD,
          List.getElem?_eq_getElem hb, List.getElem?_eq_getElem (show a < (U.take n).length by omega)]
        exact List.pairwise_iff_getElem.1 hVs a b _ _ hab
      have hjl : c + j < (U.take n).length := by simp at hj; simp; omega
      have hTo : (T.getD (c + j) ⟨0, 0⟩).old = o := by
        rw [hTold _ hjl, List.getD_eq_getElem?_getD, List.getElem?_eq_getElem hjl, ← hjo, List.getElem_drop]; rfl
      have hfind : findChunk T o c T.length = c + j := by
        rw [← hTo]; exact findChunk_hit hTs (by omega) (by omega)
      rw [hfind, ← hT, List.getD_eq_getElem?_getD]
      have hl : (((U.take n).map (fun u => (⟨u, sz u⟩ : Chunk))).take c).length = c := by simp; omega
      rw [List.getElem?_append_right (by omega), hl, show c + j - c = j by omega, List.getElem?_map,
        List.getElem?_eq_getElem hj, hjo]
      rfl
    have hfixed : ∀ o, Reach s.heap s.roots o → o ∉ (U.take n).drop c → f o = o := by
      intro o hr ho
      rw [← hf]
      unfold moveMap
      rw [hlow1, if_pos]
      by_cases hl : low ≤ o
      · have hoU := hUmem o hr hl
        rcases mem_take_drop (n := n) hoU with h | h
        · rcases mem_take_drop (n := c) h with h | h
          · left
            apply take_lt_drop hVs h
            rw [List.drop_eq_getElem_cons hcl]
            exact List.mem_cons_self ..
          · exact absurd h ho
        · right; exact hgeHigh o h
      · left
        have : (U.take n)[c] ∈ U := List.mem_of_mem_take (List.getElem_mem hcl)
        have := (hUm.1 this).2.2
        omega
    have hfturn : ∀ o, Reach s.heap s.roots o → f o = turn n sz top U o := by
      intro o hr
      unfold turn
      by_cases ho : o ∈ U.take n
      · rw [if_pos ho, newOff_take hUs ho]
        rcases mem_take_drop (n := c) ho with h | h
        · rw [← hc3 o h]
          apply hfixed o hr
          intro h'
          have := take_lt_drop hVs h h'
          omega
        · rw [hmoved o h, newOff_drop hVs h]
      · rw [if_neg ho]
        exact hfixed o hr (fun h => ho (List.mem_of_mem_drop h))
    -- spacing of the new places
    have hle : ∀ o, Reach s.heap s.roots o → f o ≤ o := by
      intro o hr
      rw [hfturn o hr]
      unfold turn
      by_cases ho : o ∈ U.take n
      · rw [if_pos ho]; exact newOff_le hUA hUlow (List.mem_of_mem_take ho)
      · rw [if_neg ho]; exact Nat.le_refl _
    have hmono : ∀ o o', Reach s.heap s.roots o → Reach s.heap s.roots o' → o < o' → f o < f o' := by
      intro o o' hr hr' hlt
      have hsep := pre.wf.sep o o' hr hr' hlt
      have hpos := (wf_lt pre.wf hr).1
      rw [hsz] at hsep hpos
      have h1 := hle o hr
      rw [hfturn o' hr']
      unfold turn
      by_cases ho' : o' ∈ U.take n
      · rw [if_pos ho']
        by_cases hl : low ≤ o
        · have hoU := hUmem o hr hl
          have ho : o ∈ U.take n := by
            rcases mem_take_drop (n := n) hoU with h | h
            · exact h
            · have := take_lt_drop hUs ho' h; omega
          rw [hfturn o hr]
          unfold turn
          rw [if_pos ho]
          have := newOff_step (sz := sz) (top := top) hUs hoU hlt
          omega
        · have := pre.done o hr (by omega)
          rw [hsz] at this
          unfold newOff
          omega
      · rw [if_neg ho']; omega
    have hinj : ∀ o o', Reach s.heap s.roots o → Reach s.heap s.roots o' → f o = f o' → o = o' := by
      intro o o' hr hr' he
      rcases Nat.lt_trichotomy o o' with h | h | h
      · have := hmono o o' hr hr' h; omega
      · exact h
      · have := hmono o' o hr' hr h; omega
    have hheap1 : ∀ o b, Reach s.heap s.roots o → s.heap o = some b → h1 (f o) = some b := by
      intro o b hr hb
      by_cases ho : o ∈ (U.take n).drop c
      · rw [hmoved o ho, hcp2 o ho, hb]
      · rw [hfixed o hr ho]
        have hs1 := sizeAt_some hb
        rw [hsz] at hs1
        obtain ⟨b', hb', hp, -⟩ := pre.wf.obj o hr
        rw [hb] at hb'
        injection hb' with hb'
        subst hb'
        apply hcp3 o b hb hp
        rw [← hs1]
        by_cases hl : low ≤ o
        · have hoU := hUmem o hr hl
          rcases mem_take_drop (n := n) hoU with h | h
          · rcases mem_take_drop (n := c) h with h | h
            · left
              have h2 := hc3 o h
              rw [newOff_take hVs h] at h2
              have h3 := newOff_end (sz := sz) (top := top) (List.Pairwise.sublist (List.take_sublist c _) hVs) h
              omega
            · exact absurd h ho
          · right
            rw [htopsum]
            apply tot_le_last hVA hVlow
            · intro u hu; exact apart_take_drop hUA hu h
            · exact hUlow o hoU
        · left
          have := pre.done o hr (by omega)
          rw [hsz] at this
          omega
    obtain ⟨h2, hw1, hw2⟩ := moveWalk_spec (pool := pool) (h := s.heap) (roots := s.roots) (f := f) (h1 := h1)
      (fun o hr => by obtain ⟨b, hb, -⟩ := pre.wf.obj o hr; exact ⟨b, hb⟩)
      (fun o hr => by
        have := hle o hr
        have := wf_lt pre.wf hr
        have := pre.htop
        omega)
      hinj ⟨fun _ => false, h1⟩ s.roots (fun o ho => .root ho)
      (fun o b hr hb => by simpa using hheap1 o b hr hb) (by simp) (fun r hr => Or.inr hr)
    rw [hw1]
    simp only []
    refine ⟨{ s with heap := h2, roots := s.roots.map f }, ?_, rfl, rfl, ?_, ?_⟩
    · rw [← hnext]
    · simp only []
      apply List.map_congr_left
      intro r hr
      exact hfturn r (.root hr)
    · intro o b hr hb
      simp only []
      rw [← hfturn o hr, hw2 o b hr hb]
      congr 1
      apply LawfulHeapObj.rename_congr
      intro p hp
      exact hfturn p (.step hr hb hp)
  · rw [if_neg (by simpa using hcl)]
    refine ⟨s, ?_, rfl, rfl, ?_⟩
    · rw [← hnext]
    · apply renamed_id
      intro o hr
      unfold turn
      by_cases ho : o ∈ U.take n
      · rw [if_pos ho, newOff_take hUs ho]
        apply Eq.symm
        apply hc3
        rw [List.take_of_length_le (by omega)]
        exact ho
      · rw [if_neg ho]

end Snek.Gc
