/- The two walks, the skip loop and the copy loop. -/
import Verif.Proofs.Gc1

namespace Snek.Gc
open HeapObj Spec

variable {β : Type} [HeapObj β]

theorem sizeAt_some {h : Heap β} {o : Nat} {b : β} (hb : h o = some b) : sizeAt h o = size b := by
  simp [sizeAt, hb]

theorem markWalk_spec {n pool low top : Nat} (hn : 0 < n) {h : Heap β} {roots : List Nat}
    (wf : WF h roots top) (htop : top ≤ pool) (s : MarkSt) (w : List Nat)
    (hw : ∀ o ∈ w, Reach h roots o)
    (hbR : ∀ o, s.busy o = true → Reach h roots o)
    (hcl : ∀ o b, s.busy o = true → h o = some b → ∀ p ∈ ptrs b, s.busy p = true ∨ p ∈ w)
    (hrt : ∀ r ∈ roots, s.busy r = true ∨ r ∈ w)
    (inv : TabInv n pool low top h s.busy s.tab) :
    ∃ m, markWalk n pool low h s w = some m ∧ (∀ o, m.busy o = true ↔ Reach h roots o) ∧
      TabInv n pool low top h m.busy m.tab := by
  induction s, w using markWalk.induct n pool low h with
  | case1 s =>
    refine ⟨s, by rw [markWalk], ?_, inv⟩
    intro o
    refine ⟨hbR o, ?_⟩
    intro hr
    induction hr with
    | root hm => simpa using hrt _ hm
    | step _ hb hp ih => simpa using hcl _ _ ih hb _ hp
  | case2 s o w hb ih =>
    rw [markWalk, dif_pos hb]
    apply ih
    · intro x hx; exact hw x (List.mem_cons_of_mem _ hx)
    · exact hbR
    · intro x b hx hbb p hp
      rcases hcl x b hx hbb p hp with h1 | h1
      · exact Or.inl h1
      · rcases List.mem_cons.1 h1 with rfl | h2
        · exact Or.inl hb
        · exact Or.inr h2
    · intro r hr
      rcases hrt r hr with h1 | h1
      · exact Or.inl h1
      · rcases List.mem_cons.1 h1 with rfl | h2
        · exact Or.inl hb
        · exact Or.inr h2
    · exact inv
  | case3 s o w hb ho hnone =>
    obtain ⟨b, hb', -⟩ := wf.obj o (hw o (List.mem_cons_self ..))
    simp [hb'] at hnone
  | case4 s o w hb ho b hbo ih =>
    rw [markWalk, dif_neg hb, dif_pos ho, hbo]
    have hbf : s.busy o = false := by simpa using hb
    have hRo := hw o (List.mem_cons_self ..)
    have hset : ∀ x, setBusy s.busy o x = true ↔ x = o ∨ s.busy x = true := by
      intro x; unfold setBusy; by_cases hx : x = o <;> simp [hx]
    apply ih
    · intro x hx
      rcases List.mem_append.1 hx with hx | hx
      · exact Reach.step hRo hbo hx
      · exact hw x (List.mem_cons_of_mem _ hx)
    · intro x hx
      rcases (hset x).1 hx with rfl | hx
      · exact hRo
      · exact hbR x hx
    · intro x b' hx hb' p hp
      rcases (hset x).1 hx with rfl | hx
      · rw [hbo] at hb'
        injection hb' with hb'
        subst hb'
        exact Or.inr (List.mem_append_left _ hp)
      · rcases hcl x b' hx hb' p hp with h1 | h1
        · exact Or.inl ((hset p).2 (Or.inr h1))
        · rcases List.mem_cons.1 h1 with rfl | h2
          · exact Or.inl ((hset _).2 (Or.inl rfl))
          · exact Or.inr (List.mem_append_right _ h2)
    · intro r hr
      rcases hrt r hr with h1 | h1
      · exact Or.inl ((hset r).2 (Or.inr h1))
      · rcases List.mem_cons.1 h1 with rfl | h2
        · exact Or.inl ((hset _).2 (Or.inl rfl))
        · exact Or.inr (List.mem_append_right _ h2)
    · obtain ⟨b', hb', hpos, hend⟩ := wf.obj o hRo
      rw [hbo] at hb'
      injection hb' with hb'
      subst hb'
      apply inv.step hn (sizeAt_some hbo).symm ho (by omega) hbf
      intro x hx hxo
      exact wf.sep x o (hbR x hx) hRo hxo
  | case5 s o w hb ho =>
    obtain ⟨b, hb', hpos, hend⟩ := wf.obj o (hw o (List.mem_cons_self ..))
    omega

theorem moveWalk_spec {pool : Nat} {h h1 : Heap β} {roots : List Nat} {f : Nat → Nat}
    (hobj : ∀ o, Reach h roots o → ∃ b, h o = some b)
    (hpool : ∀ o, Reach h roots o → f o < pool)
    (hinj : ∀ o o', Reach h roots o → Reach h roots o' → f o = f o' → o = o')
    (s : MoveSt β) (w : List Nat)
    (hw : ∀ o ∈ w, Reach h roots o)
    (hheap : ∀ o b, Reach h roots o → h o = some b →
      s.heap (f o) = some (if s.busy (f o) then rename f b else b))
    (hcl : ∀ o b, Reach h roots o → s.busy (f o) = true → h o = some b →
      ∀ p ∈ ptrs b, s.busy (f p) = true ∨ p ∈ w)
    (hrt : ∀ r ∈ roots, s.busy (f r) = true ∨ r ∈ w) :
    ∃ h2, moveWalk pool f s w = some h2 ∧
      ∀ o b, Reach h roots o → h o = some b → h2 (f o) = some (rename f b) := by
  induction s, w using @moveWalk.induct β inferInstance pool f with
  | case1 s =>
    refine ⟨s.heap, by rw [moveWalk], ?_⟩
    have hall : ∀ o, Reach h roots o → s.busy (f o) = true := by
      intro o hr
      induction hr with
      | root hm => simpa using hrt _ hm
      | step hr hb hp ih => simpa using hcl _ _ hr ih hb _ hp
    intro o b hr hb
    rw [hheap o b hr hb, if_pos (hall o hr)]
  | case2 s o w hb ih =>
    rw [moveWalk, dif_pos hb]
    apply ih
    · intro x hx; exact hw x (List.mem_cons_of_mem _ hx)
    · exact hheap
    · intro x b hr hx hbb p hp
      rcases hcl x b hr hx hbb p hp with h1 | h1
      · exact Or.inl h1
      · rcases List.mem_cons.1 h1 with rfl | h2
        · exact Or.inl hb
        · exact Or.inr h2
    · intro r hr
      rcases hrt r hr with h1 | h1
      · exact Or.inl h1
      · rcases List.mem_cons.1 h1 with rfl | h2
        · exact Or.inl hb
        · exact Or.inr h2
  | case3 s o w hb ho hnone =>
    have hr := hw o (List.mem_cons_self ..)
    obtain ⟨b, hb'⟩ := hobj o hr
    have := hheap o b hr hb'
    simp [hnone] at this
  | case4 s o w hb ho b hbo ih =>
    rw [moveWalk, dif_neg hb, dif_pos ho, hbo]
    have hbf : s.busy (f o) = false := by simpa using hb
    have hRo := hw o (List.mem_cons_self ..)
    have hset : ∀ x, setBusy s.busy (f o) x = true ↔ x = f o ∨ s.busy x = true := by
      intro x; unfold setBusy; by_cases hx : x = f o <;> simp [hx]
    obtain ⟨b0, hb0⟩ := hobj o hRo
    have hbb : b0 = b := by
      have := hheap o b0 hRo hb0
      rw [hbo, hbf] at this
      simpa using this.symm
    subst hbb
    simp only []
    apply ih
    · intro x hx
      rcases List.mem_append.1 hx with hx | hx
      · exact Reach.step hRo hb0 hx
      · exact hw x (List.mem_cons_of_mem _ hx)
    · intro x b hr hxb
      by_cases hx : f x = f o
      · have := hinj x o hr hRo hx
        subst this
        rw [hb0] at hxb
        injection hxb with hxb
        subst hxb
        simp [setBusy, setObj]
      · have := hheap x b hr hxb
        simp [setBusy, setObj, hx, this]
    · intro x b' hr hx hb' p hp
      rcases (hset _).1 hx with hx | hx
      · have := hinj x o hr hRo hx
        subst this
        rw [hb0] at hb'
        injection hb' with hb'
        subst hb'
        exact Or.inr (List.mem_append_left _ hp)
      · rcases hcl x b' hr hx hb' p hp with h1 | h1
        · exact Or.inl ((hset _).2 (Or.inr h1))
        · rcases List.mem_cons.1 h1 with rfl | h2
          · exact Or.inl ((hset _).2 (Or.inl rfl))
          · exact Or.inr (List.mem_append_right _ h2)
    · intro r hr
      rcases hrt r hr with h1 | h1
      · exact Or.inl ((hset _).2 (Or.inr h1))
      · rcases List.mem_cons.1 h1 with rfl | h2
        · exact Or.inl ((hset _).2 (Or.inl rfl))
        · exact Or.inr (List.mem_append_right _ h2)
  | case5 s o w hb ho =>
    exact absurd (hpool o (hw o (List.mem_cons_self ..))) ho

/-- Objects of a list in increasing order and not overlapping. -/
def Apart (sz : Nat → Nat) (l : List Nat) : Prop := l.Pairwise (fun a b => a + sz a ≤ b ∧ a < b)

/-- Sum of sizes. -/
def tot (sz : Nat → Nat) (l : List Nat) : Nat := (l.map sz).sum

/-- New offset when `l` is packed from `top` on. -/
def newOff (sz : Nat → Nat) (top : Nat) (l : List Nat) (o : Nat) : Nat :=
  top + tot sz (l.filter (· < o))

theorem tot_cons (sz : Nat → Nat) (a : Nat) (l : List Nat) : tot sz (a :: l) = sz a + tot sz l := by
  simp [tot]

theorem tot_append (sz : Nat → Nat) (k l : List Nat) : tot sz (k ++ l) = tot sz k + tot sz l := by
  simp [tot]

theorem filter_lt_nil {l : List Nat} {o : Nat} (h : ∀ x ∈ l, o ≤ x) : l.filter (· < o) = [] := by
  apply List.filter_eq_nil_iff.2
  intro x hx
  have := h x hx
  simp; omega

theorem filter_lt_all {l : List Nat} {o : Nat} (h : ∀ x ∈ l, x < o) : l.filter (· < o) = l := by
  apply List.filter_eq_self.2
  intro x hx
  simpa using h x hx

theorem newOff_head {sz : Nat → Nat} {top u : Nat} {us : List Nat} (ha : Apart sz (u :: us)) :
    newOff sz top (u :: us) u = top := by
  unfold newOff
  rw [filter_lt_nil]
  · simp [tot]
  · intro x hx
    rcases List.mem_cons.1 hx with rfl | hx
    · omega
    · have := (List.pairwise_cons.1 ha).1 x hx; omega

theorem newOff_tail {sz : Nat → Nat} {top u o : Nat} {us : List Nat} (ha : Apart sz (u :: us))
    (ho : o ∈ us) : newOff sz top (u :: us) o = newOff sz (top + sz u) us o := by
  unfold newOff
  have := (List.pairwise_cons.1 ha).1 o ho
  rw [List.filter_cons_of_pos (by simpa using this.2), tot_cons]
  omega

theorem tot_le_last {sz : Nat → Nat} {us : List Nat} (ha : Apart sz us) {top bound : Nat}
    (hlow : ∀ u ∈ us, top ≤ u) (hb : ∀ u ∈ us, u + sz u ≤ bound) (htb : top ≤ bound) :
    top + tot sz us ≤ bound := by
  induction us generalizing top with
  | nil => simpa [tot] using htb
  | cons u us ih =>
    have hc := List.pairwise_cons.1 ha
    rw [tot_cons]
    have h1 := hlow u (List.mem_cons_self ..)
    have h2 := hb u (List.mem_cons_self ..)
    have := ih hc.2 (top := top + sz u)
      (fun x hx => by have := hc.1 x hx; omega)
      (fun x hx => hb x (List.mem_cons_of_mem _ hx)) (by omega)
    omega

theorem moveObj_keep {h : Heap β} {old new sz x : Nat} {b : β} (hb : h x = some b)
    (hne : x ≠ new) (hd : new + sz ≤ x ∨ x + size b ≤ new) :
    moveObj h old new sz x = some b := by
  unfold moveObj
  rw [if_neg hne, hb]
  simp only []
  rw [if_neg (by omega)]

theorem copyAll_spec (sz : Nat → Nat) (us : List Nat) (h : Heap β) (top : Nat)
    (ha : Apart sz us) (hlow : ∀ u ∈ us, top ≤ u) (hpos : ∀ u ∈ us, 0 < sz u)
    (hobj : ∀ u ∈ us, ∃ b, h u = some b ∧ size b = sz u) :
    ∃ h', copyAll h top (us.map fun u => ⟨u, sz u⟩) =
        (h', us.map (fun u => ⟨u, newOff sz top us u⟩), top + tot sz us) ∧
      (∀ u ∈ us, h' (newOff sz top us u) = h u) ∧
      (∀ x b, h x = some b → 0 < size b → x + size b ≤ top ∨ top + tot sz us ≤ x → h' x = some b) := by
  induction us generalizing h top with
  | nil => exact ⟨h, by simp [copyAll, tot], by simp, fun x b hb _ _ => hb⟩
  | cons u us ih =>
    have hc := List.pairwise_cons.1 ha
    have hu := hlow u (List.mem_cons_self ..)
    have hup := hpos u (List.mem_cons_self ..)
    obtain ⟨bu, hbu, hsu⟩ := hobj u (List.mem_cons_self ..)
    have hkeep : ∀ x ∈ us, moveObj h u top (sz u) x = h x := by
      intro x hx
      obtain ⟨b, hb, -⟩ := hobj x (List.mem_cons_of_mem _ hx)
      have := hc.1 x hx
      rw [hb]
      exact moveObj_keep hb (by omega) (Or.inl (by omega))
    obtain ⟨h', e1, e2, e3⟩ := ih (moveObj h u top (sz u)) (top + sz u) hc.2
      (fun x hx => by have := hc.1 x hx; omega)
      (fun x hx => hpos x (List.mem_cons_of_mem _ hx))
      (fun x hx => by rw [hkeep x hx]; exact hobj x (List.mem_cons_of_mem _ hx))
    refine ⟨h', ?_, ?_, ?_⟩
    · simp only [List.map_cons, copyAll, e1, newOff_head ha, tot_cons]
      congr 1
      congr 1
      · congr 1
        apply List.map_congr_left
        intro x hx
        rw [newOff_tail ha hx]
      · omega
    · intro x hx
      rcases List.mem_cons.1 hx with rfl | hx
      · rw [newOff_head ha, hbu]
        apply e3 top bu
        · simp [moveObj, hbu]
        · omega
        · left; omega
      · rw [newOff_tail ha hx, e2 x hx, hkeep x hx]
    · intro x b hb hsb hd
      rw [tot_cons] at hd
      apply e3 x b
      · apply moveObj_keep hb (by omega) (by omega)
      · exact hsb
      · omega

theorem skipFixed_spec (sz : Nat → Nat) (us : List Nat) (top : Nat)
    (ha : Apart sz us) (hlow : ∀ u ∈ us, top ≤ u) :
    ∃ c, skipFixed top (us.map fun u => ⟨u, sz u⟩) = (c, top + tot sz (us.take c)) ∧
      c ≤ us.length ∧ (∀ x ∈ us.take c, x = newOff sz top us x) ∧
      (∀ x ∈ us.drop c, top + tot sz (us.take c) ≤ x) := by
  induction us generalizing top with
  | nil => exact ⟨0, by simp [skipFixed, tot], by simp, by simp, by simp⟩
  | cons u us ih =>
    have hc := List.pairwise_cons.1 ha
    have hu := hlow u (List.mem_cons_self ..)
    by_cases hgt : u > top
    · refine ⟨0, by simp [skipFixed, tot, hgt], by simp, by simp, ?_⟩
      intro x hx
      simp [tot]
      exact hlow x (by simpa using hx)
    · have : u = top := by omega
      subst this
      obtain ⟨c, e1, e2, e3, e4⟩ := ih (u + sz u) hc.2 (fun x hx => (hc.1 x hx).1)
      refine ⟨c + 1, ?_, by simp; omega, ?_, ?_⟩
      · simp only [List.map_cons, skipFixed, if_neg hgt, e1, List.take_succ_cons, tot_cons]
        congr 1
        omega
      · intro x hx
        rw [List.take_succ_cons] at hx
        rcases List.mem_cons.1 hx with rfl | hx
        · exact (newOff_head ha).symm
        · have hxu := List.mem_of_mem_take hx
          rw [newOff_tail ha hxu]
          exact e3 x hx
      · intro x hx
        rw [List.drop_succ_cons] at hx
        have := e4 x hx
        rw [List.take_succ_cons, tot_cons]
        omega

end Snek.Gc
