import Verif.Model.Dict
import Verif.Spec.Dict
import Verif.Proofs.Cmp
/-! Helper lemmas for dictionaries. -/
namespace Snek.Dict
open Spec

variable {α : Type}

/-- Flat array of a list of entries. -/
def flat : List (α × α) → List α
  | [] => []
  | (k, v) :: ps => k :: v :: flat ps

theorem flat_length (ps : List (α × α)) : (flat ps).length = 2 * ps.length := by
  induction ps with
  | nil => rfl
  | cons p ps ih => simp only [flat, List.length_cons, ih]; omega

theorem entries_flat (ps : List (α × α)) : entries (flat ps) = ps := by
  induction ps with
  | nil => rfl
  | cons p ps ih => simp only [flat, entries, ih]

theorem flat_append (ps qs : List (α × α)) : flat (ps ++ qs) = flat ps ++ flat qs := by
  induction ps with
  | nil => rfl
  | cons p ps ih => simp only [List.cons_append, flat, ih]

theorem flat_even (ps : List (α × α)) (i : Nat) : (flat ps)[2 * i]? = ps[i]?.map (·.1) := by
  induction ps generalizing i with
  | nil => simp [flat]
  | cons p ps ih =>
    cases i with
    | zero => simp [flat]
    | succ i => simp only [flat, Nat.mul_add, Nat.mul_one, List.getElem?_cons_succ, ih]

theorem flat_odd (ps : List (α × α)) (i : Nat) : (flat ps)[2 * i + 1]? = ps[i]?.map (·.2) := by
  induction ps generalizing i with
  | nil => simp [flat]
  | cons p ps ih =>
    cases i with
    | zero => simp [flat]
    | succ i =>
      have : 2 * (i + 1) + 1 = (2 * i + 1) + 1 + 1 := by omega
      simp only [flat, this, List.getElem?_cons_succ, ih]

theorem flat_take (ps : List (α × α)) (i : Nat) : (flat ps).take (2 * i) = flat (ps.take i) := by
  induction ps generalizing i with
  | nil => simp [flat]
  | cons p ps ih =>
    cases i with
    | zero => simp [flat]
    | succ i => simp only [flat, Nat.mul_add, Nat.mul_one, List.take_succ_cons, ih]

theorem flat_drop (ps : List (α × α)) (i : Nat) : (flat ps).drop (2 * i) = flat (ps.drop i) := by
  induction ps generalizing i with
  | nil => simp [flat]
  | cons p ps ih =>
    cases i with
    | zero => simp [flat]
    | succ i => simp only [flat, Nat.mul_add, Nat.mul_one, List.drop_succ_cons, ih]

theorem flat_inj {ps qs : List (α × α)} (h : flat ps = flat qs) : ps = qs := by
  rw [← entries_flat ps, ← entries_flat qs, h]

/-- The search always ends at an entry boundary within range. -/
theorem search_range (cmp : α → α → Int) (ps : List (α × α)) (p : α) (n a b : Nat) (hn : b - a ≤ n) (hab : a ≤ b) (hb : b ≤ ps.length) :
    ∃ i, search cmp (flat ps) p (2 * a) (2 * b) = some (2 * i) ∧ a ≤ i ∧ i ≤ b ∧
      ((∀ j k : Nat, (hjk : j ≤ k) → (hk : k < ps.length) → cmp (ps[k]'hk).1 p < 0 → cmp (ps[j]'(by omega)).1 p < 0) →
        (∀ j, a ≤ j → j < i → ∀ h : j < ps.length, cmp (ps[j]'h).1 p < 0) ∧
        (∀ j, i ≤ j → j < b → ∀ h : j < ps.length, ¬ cmp (ps[j]'h).1 p < 0)) := by
  induction n generalizing a b with
  | zero =>
    have : a = b := by omega
    subst this
    refine ⟨a, ?_, Nat.le_refl _, Nat.le_refl _, fun _ => ⟨by omega, by omega⟩⟩
    rw [search]; simp
  | succ n ih =>
    by_cases hlt : a < b
    · rw [search, dif_pos (by omega)]
      have ho : (2 * a + 2 * b) / 2 / 2 * 2 = 2 * ((a + b) / 2) := by omega
      simp only [ho, flat_even]
      have hm1 : (a + b) / 2 < b := by omega
      have hm2 : a ≤ (a + b) / 2 := by omega
      generalize (a + b) / 2 = m at *
      have hm : m < ps.length := by omega
      rw [List.getElem?_eq_getElem hm]
      simp only [Option.map_some]
      by_cases hc : cmp (ps[m]'hm).1 p < 0
      · rw [if_pos hc]
        obtain ⟨i, h1, h2, h3, h4⟩ := ih (m + 1) b (by omega) (by omega) hb
        refine ⟨i, by rw [show 2 * m + 2 = 2 * (m + 1) by omega]; exact h1, by omega, h3, ?_⟩
        intro mono
        obtain ⟨h5, h6⟩ := h4 mono
        refine ⟨?_, h6⟩
        intro j hj1 hj2 hj3
        by_cases hjm : j ≤ m
        · exact mono j m hjm hm hc
        · exact h5 j (by omega) hj2 hj3
      · rw [if_neg hc]
        obtain ⟨i, h1, h2, h3, h4⟩ := ih a m (by omega) hm2 (by omega)
        refine ⟨i, h1, h2, by omega, ?_⟩
        intro mono
        obtain ⟨h5, h6⟩ := h4 mono
        refine ⟨h5, ?_⟩
        intro j hj1 hj2 hj3 hcj
        by_cases hjm : j < m
        · exact h6 j hj1 hjm hj3 hcj
        · exact hc (mono m j (by omega) hj3 hcj)
    · have : a = b := by omega
      subst this
      refine ⟨a, ?_, Nat.le_refl _, Nat.le_refl _, fun _ => ⟨by omega, by omega⟩⟩
      rw [search]; simp

/-- Comparison is a total preorder on `K`. -/
structure OrdOn (K : α → Prop) (cmp : α → α → Int) : Prop where
  anti : ∀ a b, K a → K b → (cmp a b < 0 ↔ 0 < cmp b a)
  tri : ∀ a b c, K a → K b → K c → Tri (cmp a b) (cmp b c) (cmp a c)

/-- Strictly increasing keys in `K`. -/
def Sorted (K : α → Prop) (cmp : α → α → Int) : List (α × α) → Prop
  | [] => True
  | (k, _) :: ps => K k ∧ (∀ q ∈ ps, cmp k q.1 < 0) ∧ Sorted K cmp ps

theorem Sorted.key {K : α → Prop} {cmp : α → α → Int} {ps : List (α × α)} (h : Sorted K cmp ps) : ∀ q ∈ ps, K q.1 := by
  induction ps with
  | nil => simp
  | cons p ps ih =>
    intro q hq
    simp only [Sorted] at h
    rcases List.mem_cons.1 hq with h1 | h1
    · subst h1; exact h.1
    · exact ih h.2.2 q h1

theorem Sorted.lt {K : α → Prop} {cmp : α → α → Int} {ps : List (α × α)} (h : Sorted K cmp ps) (i j : Nat) (hij : i < j) (hj : j < ps.length) :
    cmp (ps[i]'(by omega)).1 (ps[j]'hj).1 < 0 := by
  induction ps generalizing i j with
  | nil => simp at hj
  | cons p ps ih =>
    simp only [Sorted] at h
    cases j with
    | zero => omega
    | succ j =>
      simp only [List.length_cons] at hj
      cases i with
      | zero => simp only [List.getElem_cons_zero, List.getElem_cons_succ]; exact h.2.1 _ (List.getElem_mem _)
      | succ i => simp only [List.getElem_cons_succ]; exact ih h.2.2 i j (by omega) (by omega)

theorem Sorted.append {K : α → Prop} {cmp : α → α → Int} (ps qs : List (α × α)) :
    Sorted K cmp (ps ++ qs) ↔ Sorted K cmp ps ∧ Sorted K cmp qs ∧ ∀ a ∈ ps, ∀ b ∈ qs, cmp a.1 b.1 < 0 := by
  induction ps with
  | nil => simp [Sorted]
  | cons p ps ih =>
    simp only [List.cons_append, Sorted, ih, List.mem_append, List.mem_cons]
    constructor
    · rintro ⟨h1, h2, h3, h4, h5⟩
      refine ⟨⟨h1, fun q hq => h2 q (Or.inl hq), h3⟩, h4, ?_⟩
      rintro a (ha | ha) b hb
      · subst ha; exact h2 b (Or.inr hb)
      · exact h5 a ha b hb
    · rintro ⟨⟨h1, h2, h3⟩, h4, h5⟩
      refine ⟨h1, ?_, h3, h4, fun a ha b hb => h5 a (Or.inr ha) b hb⟩
      rintro q (hq | hq)
      · exact h2 q hq
      · exact h5 p (Or.inl rfl) q hq

section
variable {K : α → Prop} {cmp : α → α → Int} (O : OrdOn K cmp)
include O

theorem OrdOn.refl (a : α) (h : K a) : cmp a a = 0 := by
  have := O.anti a a h h; omega

theorem OrdOn.eqs (a b : α) (ha : K a) (hb : K b) : cmp a b = 0 ↔ cmp b a = 0 := by
  have h1 := O.anti a b ha hb; have h2 := O.anti b a hb ha; omega

/-- The split the search finds: keys below, an optional equal key, keys above. -/
theorem find (ps : List (α × α)) (p : α) (hs : Sorted K cmp ps) (hp : K p) :
    ∃ i, search cmp (flat ps) p 0 (flat ps).length = some (2 * i) ∧ i ≤ ps.length ∧
      (∀ q ∈ ps.take i, cmp q.1 p < 0) ∧
      ((∃ k v, ps[i]? = some (k, v) ∧ cmp p k = 0 ∧ ∀ q ∈ ps.drop (i + 1), cmp p q.1 < 0) ∨
       ((∀ k v, ps[i]? = some (k, v) → cmp p k ≠ 0) ∧ ∀ q ∈ ps.drop i, cmp p q.1 < 0)) := by
  have hK := hs.key
  obtain ⟨i, h1, -, h3, h4⟩ := search_range cmp ps p ps.length 0 ps.length (by omega) (by omega) (Nat.le_refl _)
  have mono : (∀ j k : Nat, (hjk : j ≤ k) → (hk : k < ps.length) → cmp (ps[k]'hk).1 p < 0 → cmp (ps[j]'(by omega)).1 p < 0) := by
    intro j k hjk hk hlt
    by_cases h : j = k
    · subst h; exact hlt
    · have hl := hs.lt j k (by omega) hk
      have ht := O.tri (ps[j]'(by omega)).1 (ps[k]'hk).1 p (hK _ (List.getElem_mem _)) (hK _ (List.getElem_mem _)) hp
      have a1 := ht.le; have a2 := ht.eq; omega
  obtain ⟨h5, h6⟩ := h4 mono
  refine ⟨i, by rw [flat_length]; exact h1, h3, ?_, ?_⟩
  · intro q hq
    obtain ⟨j, hj, rfl⟩ := List.mem_take_iff_getElem.1 hq
    exact h5 j (by omega) (by omega) (by omega)
  · by_cases hi : i < ps.length
    · have hge := h6 i (Nat.le_refl _) hi hi
      have ha := O.anti (ps[i]'hi).1 p (hK _ (List.getElem_mem _)) hp
      have ha' := O.anti p (ps[i]'hi).1 hp (hK _ (List.getElem_mem _))
      have above : ∀ q ∈ ps.drop (i + 1), cmp p q.1 < 0 := by
        intro q hq
        obtain ⟨j, hj, rfl⟩ := List.mem_drop_iff_getElem.1 hq
        have hl := hs.lt i (i + 1 + j) (by omega) (by omega)
        have ht := O.tri p (ps[i]'hi).1 (ps[i + 1 + j]'(by omega)).1 hp (hK _ (List.getElem_mem _)) (hK _ (List.getElem_mem _))
        have a1 := ht.le; have a2 := ht.eq; omega
      by_cases hc : cmp p (ps[i]'hi).1 = 0
      · left
        exact ⟨(ps[i]'hi).1, (ps[i]'hi).2, by rw [List.getElem?_eq_getElem hi], hc, above⟩
      · right
        refine ⟨?_, ?_⟩
        · intro k v hkv
          rw [List.getElem?_eq_getElem hi] at hkv
          have : (ps[i]'hi).1 = k := by have := Option.some.inj hkv; rw [this]
          rw [← this]; exact hc
        · intro q hq
          rw [List.drop_eq_getElem_cons hi] at hq
          rcases List.mem_cons.1 hq with h | h
          · rw [h]; omega
          · exact above q h
    · right
      refine ⟨?_, ?_⟩
      · intro k v hkv; rw [List.getElem?_eq_none (by omega)] at hkv; cases hkv
      · intro q hq; rw [List.drop_eq_nil_of_le (by omega)] at hq; cases hq

end

theorem insert_flat (junk : α) (ps : List (α × α)) (i : Nat) (hi : i ≤ ps.length) (p : α) :
    ∃ w, insert junk (flat ps) (2 * i) p = flat (ps.take i ++ (p, w) :: ps.drop i) := by
  refine ⟨((flat ps)[2 * i + 1]?).getD junk, ?_⟩
  simp only [insert, flat_take, flat_drop, flat_append, flat, List.append_assoc, List.cons_append, List.nil_append]

theorem flat_set (ps qs : List (α × α)) (i : Nat) (hi : i = ps.length) (k w v : α) :
    (flat (ps ++ (k, w) :: qs)).set (2 * i + 1) v = flat (ps ++ (k, v) :: qs) := by
  subst hi
  rw [flat_append, flat_append, List.set_append_right _ _ (by rw [flat_length]; omega), flat_length]
  simp only [flat]
  rw [show 2 * ps.length + 1 - 2 * ps.length = 1 by omega]
  rfl

theorem split_at (ps : List (α × α)) (i : Nat) (k v : α) (h : ps[i]? = some (k, v)) :
    i < ps.length ∧ ps = ps.take i ++ (k, v) :: ps.drop (i + 1) := by
  obtain ⟨hi, he⟩ := List.getElem?_eq_some_iff.1 h
  refine ⟨hi, ?_⟩
  conv => lhs; rw [← List.take_append_drop i ps, List.drop_eq_getElem_cons hi, he]

section
variable {K : α → Prop} {cmp : α → α → Int} (O : OrdOn K cmp) (isMut : α → Bool) (junk : α)
include O

/-- Result of a store: either replaces the value of an equal key or inserts. -/
theorem store_spec (ps : List (α × α)) (p v : α) (hs : Sorted K cmp ps) (hp : K p) (hm : isMut p = false) :
    ∃ lo hi, (∀ q ∈ lo, cmp q.1 p < 0) ∧ (∀ q ∈ hi, cmp p q.1 < 0) ∧
      ((∃ k w, cmp p k = 0 ∧ ps = lo ++ (k, w) :: hi ∧ store cmp isMut junk (flat ps) p v = .ok (flat (lo ++ (k, v) :: hi))) ∨
       (ps = lo ++ hi ∧ store cmp isMut junk (flat ps) p v = .ok (flat (lo ++ (p, v) :: hi)))) := by
  obtain ⟨i, h1, h2, h3, h4⟩ := find O ps p hs hp
  rcases h4 with ⟨k, w, hk, hc, hab⟩ | ⟨hne, hab⟩
  · obtain ⟨hi, hsp⟩ := split_at ps i k w hk
    refine ⟨ps.take i, ps.drop (i + 1), h3, hab, Or.inl ⟨k, w, hc, hsp, ?_⟩⟩
    have hr : ref cmp isMut junk (flat ps) p true = .slot (flat ps) (2 * i + 1) := by
      unfold ref; rw [h1]; simp only [flat_even, hk, Option.map_some, hc]; simp
    unfold store; rw [hr]; simp only
    rw [if_pos (by rw [flat_length]; omega)]
    congr 1
    conv => lhs; arg 1; rw [hsp]
    exact flat_set _ _ i (by rw [List.length_take]; omega) k w v
  · refine ⟨ps.take i, ps.drop i, h3, hab, Or.inr ⟨(List.take_append_drop i ps).symm, ?_⟩⟩
    obtain ⟨w, hw⟩ := insert_flat junk ps i h2 p
    have hr : ref cmp isMut junk (flat ps) p true = .slot (flat (ps.take i ++ (p, w) :: ps.drop i)) (2 * i + 1) := by
      unfold ref; rw [h1]; simp only [flat_even]
      cases hh : ps[i]? with
      | none => simp [hm, hw]
      | some q =>
        have := hne q.1 q.2 (by rw [hh])
        simp [this, hm, hw]
    unfold store; rw [hr]; simp only
    rw [if_pos (by rw [flat_length]; simp only [List.length_append, List.length_take, List.length_cons, List.length_drop]; omega)]
    congr 1
    exact flat_set _ _ i (by rw [List.length_take]; omega) p w v

/-- Result of a delete. -/
theorem del_spec (ps : List (α × α)) (p : α) (hs : Sorted K cmp ps) (hp : K p) (hm : isMut p = false) :
    ∃ lo hi, (∀ q ∈ lo, cmp q.1 p < 0) ∧ (∀ q ∈ hi, cmp p q.1 < 0) ∧
      del cmp isMut junk (flat ps) p = .ok (flat (lo ++ hi)) ∧
      ((∃ k w, cmp p k = 0 ∧ ps = lo ++ (k, w) :: hi) ∨ ps = lo ++ hi) := by
  obtain ⟨i, h1, h2, h3, h4⟩ := find O ps p hs hp
  have cut : ∀ (lo hi : List (α × α)) (k w : α), i = lo.length →
      (flat (lo ++ (k, w) :: hi)).take (2 * i + 1 - 1) ++ (flat (lo ++ (k, w) :: hi)).drop (2 * i + 1 - 1 + 2) = flat (lo ++ hi) := by
    intro lo hi k w hi'
    rw [show 2 * i + 1 - 1 = 2 * i by omega, show 2 * i + 2 = 2 * (i + 1) by omega, flat_take, flat_drop, ← flat_append]
    subst hi'
    congr 2
    · rw [List.take_append_of_le_length (Nat.le_refl _), List.take_length]
    · rw [List.drop_append]; simp
  rcases h4 with ⟨k, w, hk, hc, hab⟩ | ⟨hne, hab⟩
  · obtain ⟨hi, hsp⟩ := split_at ps i k w hk
    refine ⟨ps.take i, ps.drop (i + 1), h3, hab, ?_, Or.inl ⟨k, w, hc, hsp⟩⟩
    have hr : ref cmp isMut junk (flat ps) p true = .slot (flat ps) (2 * i + 1) := by
      unfold ref; rw [h1]; simp only [flat_even, hk, Option.map_some, hc]; simp
    unfold del; rw [hr]; simp only
    congr 1
    have := cut (ps.take i) (ps.drop (i + 1)) k w (by rw [List.length_take]; omega)
    rw [← hsp] at this; exact this
  · refine ⟨ps.take i, ps.drop i, h3, hab, ?_, Or.inr (List.take_append_drop i ps).symm⟩
    obtain ⟨w, hw⟩ := insert_flat junk ps i h2 p
    have hr : ref cmp isMut junk (flat ps) p true = .slot (flat (ps.take i ++ (p, w) :: ps.drop i)) (2 * i + 1) := by
      unfold ref; rw [h1]; simp only [flat_even]
      cases hh : ps[i]? with
      | none => simp [hm, hw]
      | some q =>
        have := hne q.1 q.2 (by rw [hh])
        simp [this, hm, hw]
    unfold del; rw [hr]; simp only
    congr 1
    exact cut (ps.take i) (ps.drop i) p w (by rw [List.length_take]; omega)

/-- Result of a read. -/
theorem get_spec (ps : List (α × α)) (p : α) (hs : Sorted K cmp ps) (hp : K p) :
    (∃ k v, (k, v) ∈ ps ∧ cmp p k = 0 ∧ get cmp isMut junk (flat ps) p = .ok v) ∨
    ((∀ q ∈ ps, cmp p q.1 ≠ 0) ∧ get cmp isMut junk (flat ps) p = .error) := by
  obtain ⟨i, h1, h2, h3, h4⟩ := find O ps p hs hp
  have hK := hs.key
  rcases h4 with ⟨k, w, hk, hc, hab⟩ | ⟨hne, hab⟩
  · left
    refine ⟨k, w, List.mem_of_getElem? hk, hc, ?_⟩
    have hr : ref cmp isMut junk (flat ps) p false = .slot (flat ps) (2 * i + 1) := by
      unfold ref; rw [h1]; simp only [flat_even, hk, Option.map_some, hc]; simp
    unfold get; rw [hr]; simp only [flat_odd, hk, Option.map_some]
  · right
    refine ⟨?_, ?_⟩
    · intro q hq
      rw [← List.take_append_drop i ps] at hq
      rcases List.mem_append.1 hq with h | h
      · have := h3 q h
        have := O.anti q.1 p (hK q (List.mem_of_mem_take h)) hp
        omega
      · have := hab q h; omega
    · have hr : ref cmp isMut junk (flat ps) p false = .fail := by
        unfold ref; rw [h1]; simp only [flat_even]
        cases hh : ps[i]? with
        | none => simp
        | some q =>
          have := hne q.1 q.2 (by rw [hh])
          simp [this]
      unfold get; rw [hr]

theorem sorted_unique (ps : List (α × α)) (hs : Sorted K cmp ps) (p : α) (hp : K p) (k v k' v' : α)
    (h1 : (k, v) ∈ ps) (h2 : (k', v') ∈ ps) (hk : cmp p k = 0) (hk' : cmp p k' = 0) : k = k' ∧ v = v' := by
  obtain ⟨i, hi, e1⟩ := List.getElem_of_mem h1
  obtain ⟨j, hj, e2⟩ := List.getElem_of_mem h2
  have hK := hs.key
  have aux : ∀ a b, K a → K b → cmp p a = 0 → cmp p b = 0 → ¬ cmp a b < 0 := by
    intro a b ha hb h1 h2 h3
    have t := O.tri p a b hp ha hb
    have := t.eq; omega
  by_cases hij : i = j
  · subst hij; rw [e1] at e2; exact ⟨congrArg Prod.fst e2, congrArg Prod.snd e2⟩
  · exfalso
    rcases Nat.lt_or_gt_of_ne hij with h | h
    · have := hs.lt i j h hj; rw [e1, e2] at this
      exact aux k k' (hK _ h1) (hK _ h2) hk hk' this
    · have := hs.lt j i h hi; rw [e1, e2] at this
      exact aux k' k (hK _ h2) (hK _ h1) hk' hk this

end

theorem member_flat (cmp : α → α → Int) (p : α) (ps : List (α × α)) : member cmp p (flat ps) = true ↔ ∃ q ∈ ps, cmp p q.1 = 0 := by
  induction ps with
  | nil => simp [flat, member]
  | cons q ps ih =>
    simp only [flat, member, List.mem_cons, exists_eq_or_imp]
    by_cases h : cmp p q.1 = 0
    · simp [h]
    · simp [h, ih]

/-! ## Histories -/

/-- The entries `ps` represent the history `h` (most recent first). -/
structure Repr (K : α → Prop) (cmp : α → α → Int) (E : α → α → Prop) (h : List (DictOp α)) (ps : List (α × α)) : Prop where
  sorted : Sorted K cmp ps
  holds : ∀ k, K k → ∀ v, (∃ k', (k', v) ∈ ps ∧ cmp k k' = 0) ↔ Holds E h k v

section
variable {K : α → Prop} {cmp : α → α → Int} (O : OrdOn K cmp) {E : α → α → Prop}
  (hE : ∀ a b, K a → K b → (cmp a b = 0 ↔ E a b)) (isMut : α → Bool) (junk : α)
include O hE

theorem Repr.init : Repr K cmp E [] ([] : List (α × α)) := by
  refine ⟨trivial, ?_⟩
  intro k _ v
  constructor
  · rintro ⟨_, h, _⟩; cases h
  · intro h; cases h

theorem Repr.store {h : List (DictOp α)} {ps : List (α × α)} (R : Repr K cmp E h ps) (k v : α) (hk : K k) (hm : isMut k = false) :
    ∃ ps', Dict.store cmp isMut junk (flat ps) k v = .ok (flat ps') ∧ Repr K cmp E (.store k v :: h) ps' := by
  obtain ⟨lo, hi, hlo, hhi, hc⟩ := store_spec O isMut junk ps k v R.sorted hk hm
  have hKps := R.sorted.key
  -- common part: the new entries are lo ++ (k0, v) :: hi with cmp k k0 = 0
  have main : ∀ k0, K k0 → cmp k k0 = 0 → Sorted K cmp (lo ++ hi) → (∀ q, q ∈ ps → q ∈ lo ++ hi ∨ cmp k q.1 = 0) → (∀ q ∈ lo ++ hi, q ∈ ps) →
      Repr K cmp E (.store k v :: h) (lo ++ (k0, v) :: hi) := by
    intro k0 hk0 hkk0 hs hps hps'
    have hs' := (Sorted.append lo hi).1 hs
    have hKlo : ∀ q ∈ lo, K q.1 := fun q hq => hKps q (hps' q (List.mem_append_left _ hq))
    have hKhi : ∀ q ∈ hi, K q.1 := fun q hq => hKps q (hps' q (List.mem_append_right _ hq))
    have lo0 : ∀ q ∈ lo, cmp q.1 k0 < 0 := by
      intro q hq
      have t := O.tri q.1 k k0 (hKlo q hq) hk hk0
      have := hlo q hq; have := t.le; have := t.eq; omega
    have hi0 : ∀ q ∈ hi, cmp k0 q.1 < 0 := by
      intro q hq
      have t := O.tri k0 k q.1 hk0 hk (hKhi q hq)
      have := hhi q hq; have := t.le; have := t.eq
      have := (O.eqs k k0 hk hk0).1 hkk0; omega
    refine ⟨?_, ?_⟩
    · rw [Sorted.append]
      refine ⟨hs'.1, ⟨hk0, hi0, hs'.2.1⟩, ?_⟩
      intro a ha b hb
      rcases List.mem_cons.1 hb with hb | hb
      · subst hb; exact lo0 a ha
      · exact hs'.2.2 a ha b hb
    · intro k1 hk1 v1
      have eqk : cmp k1 k0 = 0 ↔ E k k1 := by
        rw [← hE k k1 hk hk1, O.eqs k k1 hk hk1]
        have t1 := O.tri k1 k k0 hk1 hk hk0
        have t2 := O.tri k0 k k1 hk0 hk hk1
        have t3 := O.tri k1 k0 k hk1 hk0 hk
        have := t1.le; have := t1.eq; have := t2.le; have := t2.eq; have := t3.le; have := t3.eq
        have a1 := O.anti k1 k0 hk1 hk0; have a2 := O.anti k0 k1 hk0 hk1
        have a3 := O.anti k1 k hk1 hk; have a4 := O.anti k k1 hk hk1
        have a5 := O.anti k k0 hk hk0; have a6 := O.anti k0 k hk0 hk
        omega
      constructor
      · rintro ⟨k', hmem, hc'⟩
        simp only [List.mem_append, List.mem_cons] at hmem
        rcases hmem with hmem | hmem | hmem
        · refine Holds.store _ _ _ _ _ ?_ ((R.holds k1 hk1 v1).1 ⟨k', hps' _ (List.mem_append_left _ hmem), hc'⟩)
          rw [← eqk]; intro he
          have t := O.tri k1 k' k0 hk1 (hKlo _ hmem) hk0
          have := lo0 _ hmem; have := t.eq; simp only at *; omega
        · have h1 := congrArg Prod.fst hmem; have h2 := congrArg Prod.snd hmem
          simp only at h1 h2
          subst h1; subst h2
          exact Holds.here _ _ _ _ (eqk.1 hc')
        · refine Holds.store _ _ _ _ _ ?_ ((R.holds k1 hk1 v1).1 ⟨k', hps' _ (List.mem_append_right _ hmem), hc'⟩)
          rw [← eqk]; intro he
          have t := O.tri k1 k0 k' hk1 hk0 (hKhi _ hmem)
          have := hi0 _ hmem; have := t.eq; simp only at *; omega
      · intro hh
        cases hh with
        | here _ _ _ _ he => exact ⟨k0, List.mem_append_right _ List.mem_cons_self, eqk.2 he⟩
        | store _ _ _ _ _ hne hh =>
          obtain ⟨k', hmem, hc'⟩ := (R.holds k1 hk1 v1).2 hh
          refine ⟨k', ?_, hc'⟩
          rcases hps _ hmem with h' | h'
          · rcases List.mem_append.1 h' with h' | h'
            · exact List.mem_append_left _ h'
            · exact List.mem_append_right _ (List.mem_cons_of_mem _ h')
          · exfalso
            apply hne
            rw [← hE k k1 hk hk1]
            have hk' := hKps _ hmem
            have t1 := O.tri k k' k1 hk hk' hk1
            have t2 := O.tri k1 k' k hk1 hk' hk
            have := t1.le; have := t2.le
            have := O.eqs k' k1 hk' hk1; have := O.eqs k k' hk hk'
            have a3 := O.anti k1 k hk1 hk; have a4 := O.anti k k1 hk hk1
            simp only at *; omega
  rcases hc with ⟨k0, w, hk0, hps, hst⟩ | ⟨hps, hst⟩
  · refine ⟨_, hst, ?_⟩
    have hsps := R.sorted
    rw [hps, Sorted.append] at hsps
    refine main k0 (hKps (k0, w) (by rw [hps]; simp)) hk0 ?_ ?_ ?_
    · rw [Sorted.append]
      refine ⟨hsps.1, hsps.2.1.2.2, fun a ha b hb => hsps.2.2 a ha b (List.mem_cons_of_mem _ hb)⟩
    · intro q hq; rw [hps] at hq
      simp only [List.mem_append, List.mem_cons] at hq ⊢
      rcases hq with hq | hq | hq
      · exact Or.inl (Or.inl hq)
      · right; rw [hq]; exact hk0
      · exact Or.inl (Or.inr hq)
    · intro q hq; rw [hps]
      simp only [List.mem_append, List.mem_cons] at hq ⊢
      rcases hq with hq | hq
      · exact Or.inl hq
      · exact Or.inr (Or.inr hq)
  · refine ⟨_, hst, ?_⟩
    refine main k hk (O.refl k hk) (hps ▸ R.sorted) ?_ ?_
    · intro q hq; rw [hps] at hq; exact Or.inl hq
    · intro q hq; rw [hps]; exact hq

theorem Repr.del {h : List (DictOp α)} {ps : List (α × α)} (R : Repr K cmp E h ps) (k : α) (hk : K k) (hm : isMut k = false) :
    ∃ ps', Dict.del cmp isMut junk (flat ps) k = .ok (flat ps') ∧ Repr K cmp E (.del k :: h) ps' := by
  obtain ⟨lo, hi, hlo, hhi, hdel, hc⟩ := del_spec O isMut junk ps k R.sorted hk hm
  have hKps := R.sorted.key
  have main : Sorted K cmp (lo ++ hi) → (∀ q, q ∈ ps → q ∈ lo ++ hi ∨ cmp k q.1 = 0) → (∀ q ∈ lo ++ hi, q ∈ ps) →
      Repr K cmp E (.del k :: h) (lo ++ hi) := by
    intro hs hps hps'
    refine ⟨hs, ?_⟩
    intro k1 hk1 v1
    constructor
    · rintro ⟨k', hmem, hc'⟩
      have hk' := hKps _ (hps' _ hmem)
      refine Holds.del _ _ _ _ ?_ ((R.holds k1 hk1 v1).1 ⟨k', hps' _ hmem, hc'⟩)
      rw [← hE k k1 hk hk1]; intro he
      have t := O.tri k k1 k' hk hk1 hk'
      have := t.le
      have t' := O.tri k' k1 k hk' hk1 hk
      have := t'.le
      have := O.eqs k1 k' hk1 hk'; have := O.eqs k k1 hk hk1
      have a1 := O.anti k k' hk hk'; have a2 := O.anti k' k hk' hk
      have : cmp k k' = 0 := by simp only at *; omega
      rcases List.mem_append.1 hmem with h' | h'
      · have := hlo _ h'; simp only at *; omega
      · have := hhi _ h'; simp only at *; omega
    · intro hh
      cases hh with
      | del _ _ _ _ hne hh =>
        obtain ⟨k', hmem, hc'⟩ := (R.holds k1 hk1 v1).2 hh
        refine ⟨k', ?_, hc'⟩
        rcases hps _ hmem with h' | h'
        · exact h'
        · exfalso
          apply hne
          rw [← hE k k1 hk hk1]
          have hk' := hKps _ hmem
          have t1 := O.tri k k' k1 hk hk' hk1
          have t2 := O.tri k1 k' k hk1 hk' hk
          have := t1.le; have := t2.le
          have := O.eqs k' k1 hk' hk1; have := O.eqs k k' hk hk'
          have a3 := O.anti k1 k hk1 hk; have a4 := O.anti k k1 hk hk1
          simp only at *; omega
  refine ⟨_, hdel, ?_⟩
  rcases hc with ⟨k0, w, hk0, hps⟩ | hps
  · have hsps := R.sorted
    rw [hps, Sorted.append] at hsps
    refine main ?_ ?_ ?_
    · rw [Sorted.append]
      refine ⟨hsps.1, hsps.2.1.2.2, fun a ha b hb => hsps.2.2 a ha b (List.mem_cons_of_mem _ hb)⟩
    · intro q hq; rw [hps] at hq
      simp only [List.mem_append, List.mem_cons] at hq ⊢
      rcases hq with hq | hq | hq
      · exact Or.inl (Or.inl hq)
      · right; rw [hq]; exact hk0
      · exact Or.inl (Or.inr hq)
    · intro q hq; rw [hps]
      simp only [List.mem_append, List.mem_cons] at hq ⊢
      rcases hq with hq | hq
      · exact Or.inl hq
      · exact Or.inr (Or.inr hq)
  · refine main (hps ▸ R.sorted) ?_ ?_
    · intro q hq; rw [hps] at hq; exact Or.inl hq
    · intro q hq; rw [hps]; exact hq

theorem Repr.run (junks : Nat → α) (ops : List (DictOp α)) (hops : ∀ op ∈ ops, K op.key ∧ isMut op.key = false)
    {h : List (DictOp α)} {ps : List (α × α)} (R : Repr K cmp E h ps) :
    ∃ ps', Dict.run cmp isMut junks ops (flat ps) = some (flat ps') ∧ Repr K cmp E (ops.reverse ++ h) ps' := by
  induction ops generalizing h ps with
  | nil => exact ⟨ps, rfl, R⟩
  | cons op ops ih =>
    obtain ⟨hk, hm⟩ := hops op List.mem_cons_self
    have hrest : ∀ op ∈ ops, K op.key ∧ isMut op.key = false := fun o ho => hops o (List.mem_cons_of_mem _ ho)
    have : ∃ ps1, Dict.step cmp isMut (junks ops.length) (flat ps) op = some (flat ps1) ∧ Repr K cmp E (op :: h) ps1 := by
      cases op with
      | store k v =>
        obtain ⟨ps1, h1, h2⟩ := R.store O hE isMut (junks ops.length) k v hk hm
        exact ⟨ps1, by simp only [Dict.step, h1], h2⟩
      | del k =>
        obtain ⟨ps1, h1, h2⟩ := R.del O hE isMut (junks ops.length) k hk hm
        exact ⟨ps1, by simp only [Dict.step, h1], h2⟩
    obtain ⟨ps1, h1, h2⟩ := this
    obtain ⟨ps2, h3, h4⟩ := ih hrest h2
    refine ⟨ps2, ?_, ?_⟩
    · simp only [Dict.run, h1, Option.bind_some, h3]
    · simpa using h4

end

/-! ## Values -/

/-- Stored, immutable keys without prefix clashes are totally ordered by the code's comparison. -/
theorem ordTree (K : Tree → Prop) (hK : ∀ k, K k → Stored k) (hc : ∀ a b, K a → K b → ¬ PrefixClash a b) : OrdOn K Tree.cmp := by
  constructor
  · intro a b ha hb
    rw [cmp_ok a b (hK a ha) (hK b hb) (hc a b ha hb), cmp_ok b a (hK b hb) (hK a ha) (hc b a hb ha), okCmp_antisym a b]
    omega
  · intro a b c ha hb hcc
    rw [cmp_ok a b (hK a ha) (hK b hb) (hc a b ha hb), cmp_ok b c (hK b hb) (hK c hcc) (hc b c hb hcc), cmp_ok a c (hK a ha) (hK c hcc) (hc a c ha hcc)]
    exact okCmp_tri a b c (hK a ha) (hK b hb) (hK c hcc)

end Snek.Dict
