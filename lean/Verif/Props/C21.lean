import Verif.Proofs.Gc6
/-!
# C21 Relocation lookup is exact
-/
namespace Snek
open Gc Spec HeapObj

/-- Stand-in objects that are just sizes. -/
instance : HeapObj Nat := ⟨id, fun _ => [], fun _ b => b⟩

/-- Offsets and sizes of objects found by the mark walk, in the order found: nothing overlaps, all in the part of the pool in
use and at or above `low`. -/
structure C21_Found (low top : Nat) (found : List (Nat × Nat)) : Prop where
  range : ∀ x ∈ found, low ≤ x.1 ∧ 0 < x.2 ∧ x.1 + x.2 ≤ top
  sep : found.Pairwise (fun x y => x.1 + x.2 ≤ y.1 ∨ y.1 + y.2 ≤ x.1)

/-- What note_chunk leaves in the table. -/
def C21_table (n low top : Nat) (found : List (Nat × Nat)) : Tab :=
  found.foldl (fun t x => noteChunk n low t x.1 x.2) ⟨[], top⟩

/-- heap of sizes -/
private def hp (found : List (Nat × Nat)) : Heap Nat := fun o => (found.find? (fun x => x.1 == o)).map (·.2)

private theorem sep_of {low top : Nat} {found : List (Nat × Nat)} (hf : C21_Found low top found) {x y : Nat × Nat}
    (hx : x ∈ found) (hy : y ∈ found) (hlt : x.1 < y.1) : x.1 + x.2 ≤ y.1 := by
  obtain ⟨r, s⟩ := hf
  have : ∀ a ∈ found, ∀ b ∈ found, a ≠ b → (a.1 + a.2 ≤ b.1 ∨ b.1 + b.2 ≤ a.1) := by
    clear hx hy
    induction found with
    | nil => simp
    | cons c l ih =>
      have hc := List.pairwise_cons.1 s
      have ih := ih (fun x hx => r x (List.mem_cons_of_mem _ hx)) hc.2
      intro a ha b hb hne
      rcases List.mem_cons.1 ha with h1 | h1
      · rcases List.mem_cons.1 hb with h2 | h2
        · exact absurd (h1.trans h2.symm) hne
        · rw [h1]; exact hc.1 b h2
      · rcases List.mem_cons.1 hb with h2 | h2
        · rw [h2]; exact (hc.1 a h1).symm
        · exact ih a h1 b h2 hne
  have h1 := this x hx y hy (by intro h; subst h; omega)
  have := r x hx
  have := r y hy
  omega

private theorem uniq {low top : Nat} {found : List (Nat × Nat)} (hf : C21_Found low top found) :
    (found.map (·.1)).Nodup := by
  unfold List.Nodup
  rw [List.pairwise_map]
  apply List.Pairwise.imp_of_mem _ hf.sep
  intro a b ha hb h he
  have := hf.range a ha
  have := hf.range b hb
  omega

private theorem hp_mem {low top : Nat} {found : List (Nat × Nat)} (hf : C21_Found low top found) {x : Nat × Nat}
    (hx : x ∈ found) : hp found x.1 = some x.2 := by
  have hn := uniq hf
  clear hf
  unfold hp
  induction found with
  | nil => simp at hx
  | cons c l ih =>
    have hn' := List.nodup_cons.1 (by simpa using hn : (c.1 :: l.map (·.1)).Nodup)
    rcases List.mem_cons.1 hx with rfl | h
    · simp
    · have hne : c.1 ≠ x.1 := by
        intro he; apply hn'.1; rw [he]; exact List.mem_map_of_mem h
      rw [List.find?_cons_of_neg (by simpa using hne)]
      exact ih h hn'.2

private theorem fold_inv {n low top : Nat} (hn : 0 < n) {all : List (Nat × Nat)} (hf : C21_Found low top all) :
    ∀ (todo done : List (Nat × Nat)) (t : Tab), done ++ todo = all →
      TabInv n top low top (hp all) (fun o => decide (o ∈ done.map (·.1))) t →
      TabInv n top low top (hp all) (fun o => decide (o ∈ all.map (·.1)))
        (todo.foldl (fun t x => noteChunk n low t x.1 x.2) t) := by
  intro todo
  induction todo with
  | nil =>
    intro done t he inv
    rw [List.append_nil] at he
    rw [← he]; rw [← he] at inv; exact inv
  | cons x todo ih =>
    intro done t he inv
    have hx : x ∈ all := by rw [← he]; simp
    have hr := hf.range x hx
    rw [List.foldl_cons]
    apply ih (done ++ [x]) _ (by rw [← he]; simp)
    have hnew : x.1 ∉ done.map (·.1) := by
      have := uniq hf
      rw [← he, List.map_append, List.nodup_append] at this
      intro hm
      exact this.2.2 _ hm x.1 (by simp) rfl
    have hb : (fun o => decide (o ∈ (done ++ [x]).map (·.1))) = setBusy (fun o => decide (o ∈ done.map (·.1))) x.1 := by
      funext o
      unfold setBusy
      by_cases h : o = x.1
      · subst h; simp
      · simp only [h, if_false, List.map_append, List.mem_append, List.map_cons, List.map_nil, List.mem_singleton, or_false]
    rw [hb]
    apply inv.step hn
    · show x.2 = Spec.sizeAt (hp all) x.1
      unfold Spec.sizeAt
      rw [hp_mem hf hx]
      rfl
    · omega
    · omega
    · simpa using hnew
    · intro o ho hlt
      obtain ⟨y, hy, rfl⟩ := List.mem_map.1 (of_decide_eq_true ho)
      have hya : y ∈ all := by rw [← he]; simp [hy]
      have e : Spec.sizeAt (hp all) y.1 = y.2 := by
        unfold Spec.sizeAt
        rw [hp_mem hf hya]
        rfl
      rw [e]
      exact sep_of hf hya hx hlt

/-- `sorted` being the objects found in address order, the table holds the first `n` of them in this order, with their sizes. The
order of discovery does not matter. -/
theorem C21_lowest (n low top : Nat) (hn : 0 < n) (found sorted : List (Nat × Nat)) (hf : C21_Found low top found)
    (hp : found.Perm sorted) (hs : sorted.Pairwise (fun x y => x.1 < y.1)) :
    (C21_table n low top found).tab.map (fun c => (c.old, c.val)) = sorted.take n := by
  have inv := fold_inv hn hf found [] ⟨[], top⟩ rfl (by
    have := TabInv.init n top low top hn (Snek.hp found)
    simpa using this)
  have hm : marked top low (fun o => decide (o ∈ found.map (·.1))) = sorted.map (·.1) := by
    apply sorted_ext (marked_sorted ..)
    · exact List.pairwise_map.2 hs
    · intro o
      rw [marked_mem]
      constructor
      · rintro ⟨_, h, _⟩
        obtain ⟨y, hy, rfl⟩ := List.mem_map.1 (of_decide_eq_true h)
        exact List.mem_map_of_mem (hp.subset hy)
      · intro h
        obtain ⟨y, hy, rfl⟩ := List.mem_map.1 h
        have hy' := hp.symm.subset hy
        have := hf.range y hy'
        exact ⟨by omega, decide_eq_true (List.mem_map_of_mem hy'), this.1⟩
  have ht := inv.tab
  unfold C21_table
  rw [ht, hm, ← List.map_take, List.map_take, List.map_take, List.map_map, List.map_map, ← List.map_take]
  conv => rhs; rw [← List.map_id (sorted.take n)]
  apply List.map_congr_left
  intro y hy
  have hy' := hp.symm.subset (List.mem_of_mem_take hy)
  have e : Spec.sizeAt (Snek.hp found) y.1 = y.2 := by
    unfold Spec.sizeAt
    rw [hp_mem hf hy']
    rfl
  simp [ent, e]

/-- Looking up the old address of an entry at or above `first` finds this entry, whatever the other entries are, as long as the
table is in address order. Addresses outside the range being moved are left alone. -/
theorem C21_lookup (tab : List Chunk) (hs : tab.Pairwise (fun a b => a.old < b.old)) (first low high : Nat) (i : Nat) (c : Chunk)
    (hi : first ≤ i) (hc : tab[i]? = some c) (hlow : low ≤ c.old) (hhigh : c.old < high) :
    moveMap tab first low high c.old = c.val ∧
    (∀ o, o < low ∨ high ≤ o → moveMap tab first low high o = o) := by
  have hlt : i < tab.length := by
    apply Nat.lt_of_not_le; intro h
    rw [List.getElem?_eq_none h] at hc; cases hc
  have hg : tab[i] = c := by
    rw [List.getElem?_eq_getElem hlt] at hc; injection hc
  refine ⟨?_, ?_⟩
  · unfold moveMap
    rw [if_neg (by omega)]
    have hst : SortedTab tab := by
      intro x y hxy hy
      rw [List.getD_eq_getElem?_getD, List.getD_eq_getElem?_getD, List.getElem?_eq_getElem hy,
        List.getElem?_eq_getElem (by omega)]
      exact List.pairwise_iff_getElem.1 hs x y (by omega) hy hxy
    have := findChunk_hit (tab := tab) hst hi hlt
    have hg' : tab.getD i ⟨0, 0⟩ = c := by rw [List.getD_eq_getElem?_getD, hc]; rfl
    rw [hg'] at this
    rw [this, List.getD_eq_getElem?_getD, hc]
    rfl
  · intro o ho
    unfold moveMap
    rw [if_pos ho]

/-- Objects found in a scrambled order, more than the table holds. -/
example : C21_Found 8 100 [(40, 8), (8, 4), (60, 40), (20, 12)] ∧
    [(40, 8), (8, 4), (60, 40), (20, 12)].Perm [(8, 4), (20, 12), (40, 8), (60, 40)] ∧
    ([(8, 4), (20, 12), (40, 8), (60, 40)] : List (Nat × Nat)).Pairwise (fun x y => x.1 < y.1) := by
  refine ⟨⟨by decide, by decide⟩, by decide, by decide⟩

end Snek
