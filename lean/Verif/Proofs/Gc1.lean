/- Chunk table lemmas: binary search, and the table as the lowest `n` live objects. -/
import Verif.Spec.Gc

namespace Snek.Gc
open HeapObj Spec

/-- Entries in strictly increasing order of old offset. -/
def SortedTab (tab : List Chunk) : Prop :=
  ∀ i j, i < j → j < tab.length → (tab.getD i ⟨0, 0⟩).old < (tab.getD j ⟨0, 0⟩).old

theorem findChunk_spec (tab : List Chunk) (hs : SortedTab tab) (offset : Nat) (l r : Nat)
    (hlr : l ≤ r) (hr : r ≤ tab.length) :
    l ≤ findChunk tab offset l r ∧ findChunk tab offset l r ≤ r ∧
    (∀ i, l ≤ i → i < findChunk tab offset l r → (tab.getD i ⟨0, 0⟩).old < offset) ∧
    (∀ i, findChunk tab offset l r ≤ i → i < r → offset ≤ (tab.getD i ⟨0, 0⟩).old) := by
  induction hn : r - l using Nat.strongRecOn generalizing l r with
  | ind k ih =>
    rw [findChunk]
    by_cases hlt : l < r
    · rw [if_pos hlt]
      simp only []
      by_cases hm : (tab.getD ((l + r) / 2) ⟨0, 0⟩).old < offset
      · rw [if_pos hm]
        obtain ⟨h1, h2, h3, h4⟩ := ih (r - ((l + r) / 2 + 1)) (by omega) ((l + r) / 2 + 1) r (by omega) hr rfl
        refine ⟨by omega, h2, ?_, h4⟩
        intro i hi hik
        by_cases hle : i ≤ (l + r) / 2
        · rcases Nat.lt_or_eq_of_le hle with h | h
          · exact Nat.lt_trans (hs i _ h (by omega)) hm
          · rw [h]; exact hm
        · exact h3 i (by omega) hik
      · rw [if_neg hm]
        obtain ⟨h1, h2, h3, h4⟩ := ih ((l + r) / 2 - l) (by omega) l ((l + r) / 2) (by omega) (by omega) rfl
        refine ⟨h1, by omega, h3, ?_⟩
        intro i hi hir
        by_cases hle : i < (l + r) / 2
        · exact h4 i hi hle
        · have hm' := Nat.le_of_not_lt hm
          rcases Nat.lt_or_eq_of_le (Nat.le_of_not_lt hle) with h | h
          · exact Nat.le_of_lt (Nat.lt_of_le_of_lt hm' (hs _ i h (by omega)))
          · rw [← h]; exact hm'
    · rw [if_neg hlt]
      refine ⟨Nat.le_refl _, hlr, ?_, ?_⟩
      · intro i h1 h2; omega
      · intro i h1 h2; omega

theorem range_split {o pool : Nat} (h : o < pool) :
    ∃ rest, List.range pool = List.range o ++ o :: rest ∧ ∀ x ∈ rest, o < x ∧ x < pool := by
  induction pool with
  | zero => omega
  | succ p ih =>
    by_cases hp : o < p
    · obtain ⟨rest, h1, h2⟩ := ih hp
      refine ⟨rest ++ [p], by rw [List.range_succ, h1]; simp, ?_⟩
      intro x hx
      rcases List.mem_append.1 hx with hx | hx
      · have := h2 x hx; omega
      · have := List.mem_singleton.1 hx; omega
    · have : o = p := by omega
      subst this
      exact ⟨[], by rw [List.range_succ], by simp⟩

variable {β : Type} [HeapObj β]

/-- Table entry for a live object. -/
def ent (h : Heap β) (o : Nat) : Chunk := ⟨o, sizeAt h o⟩

/-- Marked objects at or above `low`, in address order. -/
def marked (pool low : Nat) (busy : Nat → Bool) : List Nat :=
  (List.range pool).filter (fun o => busy o && decide (low ≤ o))

/-- The end of the `i`-th object of a list. -/
def endAt (h : Heap β) (l : List Nat) (i : Nat) : Nat := l.getD i 0 + sizeAt h (l.getD i 0)

structure TabInv (n pool low top : Nat) (h : Heap β) (busy : Nat → Bool) (t : Tab) : Prop where
  tab : t.tab = ((marked pool low busy).map (ent h)).take n
  high : t.high = if n ≤ (marked pool low busy).length then endAt h (marked pool low busy) (n - 1) else top

theorem marked_mem {pool low : Nat} {busy : Nat → Bool} {o : Nat} :
    o ∈ marked pool low busy ↔ o < pool ∧ busy o = true ∧ low ≤ o := by
  simp [marked]

theorem marked_sorted (pool low : Nat) (busy : Nat → Bool) :
    (marked pool low busy).Pairwise (· < ·) := by
  unfold marked
  apply List.Pairwise.filter
  exact List.pairwise_lt_range

theorem ent_sorted (h : Heap β) {l : List Nat} (hl : l.Pairwise (· < ·)) (n : Nat) :
    SortedTab ((l.map (ent h)).take n) := by
  intro i j hij hj
  have hj' : j < l.length := by simp at hj; omega
  have hi' : i < l.length := by omega
  have hjn : j < n := by simp at hj; omega
  rw [List.getD_eq_getElem?_getD, List.getD_eq_getElem?_getD, List.getElem?_take_of_lt hjn,
    List.getElem?_take_of_lt (by omega)]
  simp [hi', hj', ent]
  exact List.pairwise_iff_getElem.1 hl i j hi' hj' hij

theorem TabInv.init (n pool low top : Nat) (hn : 0 < n) (h : Heap β) :
    TabInv n pool low top h (fun _ => false) ⟨[], top⟩ := by
  have e : marked pool low (fun _ => false) = [] := by
    unfold marked; apply List.filter_eq_nil_iff.2; simp
  constructor
  · simp [e]
  · simp [e]; omega

theorem marked_set_low {pool low : Nat} {busy : Nat → Bool} {o : Nat} (hlow : o < low) :
    marked pool low (setBusy busy o) = marked pool low busy := by
  unfold marked
  apply List.filter_congr
  intro x _
  unfold setBusy
  by_cases h : x = o
  · subst h; simp; omega
  · simp [h]

theorem marked_split {pool low : Nat} {busy : Nat → Bool} {o : Nat} (ho : o < pool)
    (hlow : low ≤ o) (hb : busy o = false) :
    ∃ A B, marked pool low busy = A ++ B ∧ marked pool low (setBusy busy o) = A ++ o :: B ∧
      (∀ x ∈ A, x < o ∧ busy x = true) ∧ (∀ x ∈ B, o < x ∧ busy x = true) := by
  obtain ⟨rest, h1, h2⟩ := range_split ho
  refine ⟨(List.range o).filter (fun x => busy x && decide (low ≤ x)),
    rest.filter (fun x => busy x && decide (low ≤ x)), ?_, ?_, ?_, ?_⟩
  · unfold marked; rw [h1]; simp [hb]
  · unfold marked; rw [h1, List.filter_append]
    congr 1
    · apply List.filter_congr
      intro x hx
      have : x ≠ o := by have := List.mem_range.1 hx; omega
      simp [setBusy, this]
    · rw [List.filter_cons_of_pos (by simp [setBusy, hlow])]
      congr 1
      apply List.filter_congr
      intro x hx
      have : x ≠ o := by have := h2 x hx; omega
      simp [setBusy, this]
  · intro x hx
    simp at hx
    exact ⟨by omega, hx.2.1⟩
  · intro x hx
    simp at hx
    exact ⟨(h2 x hx.1).1, hx.2.1⟩

theorem TabInv.step {n pool low top : Nat} (hn : 0 < n) {h : Heap β} {busy : Nat → Bool} {t : Tab}
    (inv : TabInv n pool low top h busy t) {o sz : Nat} (hsz : sz = sizeAt h o)
    (ho : o < pool) (hot : o < top) (hb : busy o = false)
    (hsep : ∀ x, busy x = true → x < o → x + sizeAt h x ≤ o) :
    TabInv n pool low top h (setBusy busy o) (noteChunk n low t o sz) := by
  subst hsz
  by_cases hlow : o < low
  · rw [noteChunk, if_pos (Or.inl hlow)]
    constructor
    · rw [marked_set_low hlow]; exact inv.tab
    · rw [marked_set_low hlow]; exact inv.high
  have hlow : low ≤ o := by omega
  obtain ⟨A, B, hL, hL', hA, hB⟩ := marked_split ho hlow hb
  have hit := inv.tab
  have hih := inv.high
  by_cases hfull : n ≤ A.length
  · -- table already full of lower objects
    have hlen : n ≤ (A ++ B).length := by simp; omega
    rw [hL, if_pos hlen] at hih
    have hidx : (A ++ B).getD (n - 1) 0 = A.getD (n - 1) 0 := by
      rw [List.getD_eq_getElem?_getD, List.getD_eq_getElem?_getD, List.getElem?_append_left (by omega)]
    have hmem : A.getD (n - 1) 0 ∈ A := by
      rw [List.getD_eq_getElem?_getD, List.getElem?_eq_getElem (by omega)]; simp
    have hhigh : t.high ≤ o := by
      rw [hih, endAt, hidx]
      exact hsep _ (hA _ hmem).2 (hA _ hmem).1
    rw [noteChunk, if_pos (Or.inr hhigh)]
    constructor
    · rw [hL', hit, hL]
      simp only [List.map_append, List.take_append]
      have : n - (A.map (ent h)).length = 0 := by simp; omega
      rw [this]; simp
    · rw [hL', if_pos (by simp; omega), hih, endAt, endAt, hidx]
      have : (A ++ o :: B).getD (n - 1) 0 = A.getD (n - 1) 0 := by
        rw [List.getD_eq_getElem?_getD, List.getD_eq_getElem?_getD, List.getElem?_append_left (by omega)]
      rw [this]
  · have hfull : A.length < n := by omega
    have hhigh : o < t.high := by
      rw [hih, hL]
      by_cases hlen : n ≤ (A ++ B).length
      · rw [if_pos hlen, endAt]
        have hi : n - 1 - A.length < B.length := by simp at hlen; omega
        have : (A ++ B).getD (n - 1) 0 = B[n - 1 - A.length] := by
          rw [List.getD_eq_getElem?_getD, List.getElem?_append_right (by omega),
            List.getElem?_eq_getElem hi]; simp
        rw [this]
        have := (hB _ (List.getElem_mem hi)).1
        omega
      · rw [if_neg hlen]; exact hot
    have hcond : ¬ (o < low ∨ t.high ≤ o) := by omega
    have htab : t.tab = A.map (ent h) ++ (B.map (ent h)).take (n - A.length) := by
      rw [hit, hL, List.map_append, List.take_append, List.length_map,
        List.take_of_length_le (by simp; omega)]
    have hsorted : SortedTab t.tab := by rw [hit]; exact ent_sorted h (marked_sorted ..) n
    have hc : findChunk t.tab o 0 t.tab.length = A.length := by
      obtain ⟨-, h2, h3, h4⟩ := findChunk_spec t.tab hsorted o 0 t.tab.length (Nat.zero_le _) (Nat.le_refl _)
      have hge : A.length ≤ findChunk t.tab o 0 t.tab.length := by
        apply Nat.le_of_not_lt
        intro hlt
        have := h4 _ (Nat.le_refl _) (by rw [htab] at hlt ⊢; simp at hlt ⊢; omega)
        revert this hlt
        generalize findChunk t.tab o 0 t.tab.length = k
        intro hlt hk
        rw [htab, List.getD_eq_getElem?_getD, List.getElem?_append_left (by simpa using hlt)] at hk
        simp [hlt, ent] at hk
        have := (hA _ (List.getElem_mem hlt)).1
        omega
      apply Nat.le_antisymm _ hge
      apply Nat.le_of_not_lt
      intro hlt
      have hk := h3 A.length (Nat.zero_le _) hlt
      have hlenB : A.length < t.tab.length := by omega
      rw [htab] at hk hlenB
      rw [List.getD_eq_getElem?_getD, List.getElem?_append_right (by simp)] at hk
      simp at hlenB
      have h0 : 0 < B.length := by omega
      rw [List.getElem?_take_of_lt (by simp; omega)] at hk
      simp [h0, ent] at hk
      have := (hB _ (List.getElem_mem h0)).1
      omega
    have hnew : noteChunk n low t o (sizeAt h o) =
        ⟨((A ++ o :: B).map (ent h)).take n,
          if (((A ++ o :: B).map (ent h)).take n).length = n then
            ((((A ++ o :: B).map (ent h)).take n).getD (n - 1) ⟨0, 0⟩).old +
            ((((A ++ o :: B).map (ent h)).take n).getD (n - 1) ⟨0, 0⟩).val
          else t.high⟩ := by
      rw [noteChunk, if_neg hcond]
      simp only [hc]
      have : (t.tab.take A.length ++ ⟨o, sizeAt h o⟩ :: t.tab.drop A.length).take n
          = ((A ++ o :: B).map (ent h)).take n := by
        rw [htab]
        have e1 : (A.map (ent h) ++ (B.map (ent h)).take (n - A.length)).take A.length = A.map (ent h) :=
          List.take_left' (by simp)
        have e2 : (A.map (ent h) ++ (B.map (ent h)).take (n - A.length)).drop A.length
            = (B.map (ent h)).take (n - A.length) := List.drop_left' (by simp)
        rw [e1, e2]
        rw [List.map_append, List.map_cons, List.take_append, List.take_append]
        congr 1
        simp only [List.length_map]
        obtain ⟨k, hk⟩ : ∃ k, n - A.length = k + 1 := ⟨n - A.length - 1, by omega⟩
        rw [hk, List.take_succ_cons, List.take_succ_cons, List.take_take]
        congr 2
        omega
      rw [this]
    rw [hnew]
    constructor
    · rw [hL']
    · rw [hL']
      simp only []
      by_cases hlen : n ≤ (A ++ o :: B).length
      · rw [if_pos hlen, if_pos (by simp at hlen ⊢; omega)]
        have hi : n - 1 < (A ++ o :: B).length := by omega
        have e1 : (((A ++ o :: B).map (ent h)).take n).getD (n - 1) ⟨0, 0⟩ = ent h ((A ++ o :: B).getD (n - 1) 0) := by
          rw [List.getD_eq_getElem?_getD, List.getElem?_take_of_lt (by omega), List.getElem?_map,
            List.getElem?_eq_getElem hi, List.getD_eq_getElem?_getD, List.getElem?_eq_getElem hi]
          simp
        rw [e1]; simp [endAt, ent]
      · rw [if_neg hlen, if_neg (by simp at hlen ⊢; omega), hih, hL]
        rw [if_neg (by simp at hlen ⊢; omega)]

end Snek.Gc
