import Verif.Model.Slice
import Verif.Spec.Slice
namespace Snek

/-- Two strictly increasing lists with the same members are equal. -/
theorem sorted_ext {l₁ l₂ : List Nat} (h₁ : l₁.Pairwise (· < ·)) (h₂ : l₂.Pairwise (· < ·))
    (h : ∀ x, x ∈ l₁ ↔ x ∈ l₂) : l₁ = l₂ := by
  induction l₁ generalizing l₂ with
  | nil =>
    cases l₂ with
    | nil => rfl
    | cons b t => exact absurd ((h b).2 (by simp)) (by simp)
  | cons a s ih =>
    cases l₂ with
    | nil => exact absurd ((h a).1 (by simp)) (by simp)
    | cons b t =>
      rw [List.pairwise_cons] at h₁ h₂
      have hab : a = b := by
        have h1 := (h a).1 (by simp)
        have h2 := (h b).2 (by simp)
        simp only [List.mem_cons] at h1 h2
        rcases h1 with h1 | h1
        · exact h1
        · rcases h2 with h2 | h2
          · exact h2.symm
          · have := h₁.1 _ h2; have := h₂.1 _ h1; omega
      subst hab
      congr 1
      apply ih h₁.2 h₂.2
      intro x
      have hx := h x
      simp only [List.mem_cons] at hx
      constructor
      · intro hm
        rcases hx.1 (Or.inr hm) with r | r
        · have := h₁.1 _ hm; omega
        · exact r
      · intro hm
        rcases hx.2 (Or.inr hm) with r | r
        · have := h₂.1 _ hm; omega
        · exact r

theorem toOff_of_lt (A : Arch) (x : Int) (h0 : 0 ≤ x) (h1 : x < 2 ^ A.offBits) : A.toOff x = x.toNat := by
  unfold Arch.toOff
  congr 1
  apply Int.emod_eq_of_lt h0
  simpa using h1

theorem sliceLoop_eq (A : Arch) (data : List α) (stride : Int) (hl : (data.length : Int) ≤ 2 ^ A.offBits) :
    ∀ (n : Nat) (pos : Nat), (∀ k : Nat, k < n → 0 ≤ (pos : Int) + k * stride ∧ (pos : Int) + k * stride < data.length) →
    sliceLoop A data n pos stride = some ((List.range n).filterMap fun k : Nat => data[((pos : Int) + k * stride).toNat]?) := by
  intro n
  induction n with
  | zero => intro pos _; rfl
  | succ n ih =>
    intro pos h
    have h0 := h 0 (by omega)
    have hp : pos < data.length := by simp at h0; omega
    rw [sliceLoop, List.range_succ_eq_map, List.filterMap_cons]
    simp only [List.filterMap_map]
    have e0 : (((pos : Int) + ((0 : Nat) : Int) * stride).toNat) = pos := by simp
    rw [e0, List.getElem?_eq_getElem hp]
    by_cases hn : n = 0
    · subst hn; simp [sliceLoop]
    · have h1 := h 1 (by omega)
      have e1 : A.toOff ((pos : Int) + stride) = ((pos : Int) + stride).toNat := by
        apply toOff_of_lt <;> (simp at h1; omega)
      have e2 : ((((pos : Int) + stride).toNat : Nat) : Int) = pos + stride := by simp at h1; omega
      have := ih ((pos : Int) + stride).toNat (by
        intro k hk
        have := h (k + 1) (by omega)
        rw [e2]
        have e : (pos : Int) + stride + k * stride = pos + ((k + 1 : Nat) : Int) * stride := by push_cast; rw [Int.add_mul]; omega
        rw [e]; exact this)
      rw [e1]
      simp only [this, Option.bind_eq_bind, Option.bind_some, Option.pure_def]
      congr 3
      funext k
      rw [e2]
      have e : (pos : Int) + stride + k * stride = pos + ((k + 1 : Nat) : Int) * stride := by push_cast; rw [Int.add_mul]; omega
      simp only [Function.comp]
      rw [e]

/-- Number of steps of a forward slice. -/
theorem fwd_count (s e d : Int) (hd : 0 < d) (k : Nat) :
    (k : Int) < Int.tdiv (e + d - 1 - s) d ↔ s + k * d < e := by
  by_cases hn : 0 ≤ e + d - 1 - s
  · rw [Int.tdiv_eq_ediv_of_nonneg hn]
    have h1 : (k : Int) < (e + d - 1 - s) / d ↔ (k : Int) + 1 ≤ (e + d - 1 - s) / d := by omega
    rw [h1, Int.le_ediv_iff_mul_le hd]
    have : ((k : Int) + 1) * d = k * d + d := by rw [Int.add_mul]; omega
    omega
  · have h1 : Int.tdiv (e + d - 1 - s) d ≤ 0 := by
      have := Int.tdiv_nonneg (a := -(e + d - 1 - s)) (b := d) (by omega) (by omega)
      rw [Int.neg_tdiv] at this; omega
    have h2 : 0 ≤ (k : Int) * d := Int.mul_nonneg (by omega) (by omega)
    constructor <;> intro h <;> omega

/-- Number of steps of a backward slice. -/
theorem bwd_count (s e d : Int) (hd : d < 0) (k : Nat) :
    (k : Int) < Int.tdiv (e + d + 1 - s) d ↔ e < s + k * d := by
  have h := fwd_count (-s) (-e) (-d) (by omega) k
  have e1 : -e + -d - 1 - -s = -(e + d + 1 - s) := by omega
  rw [e1, Int.neg_tdiv, Int.tdiv_neg, Int.neg_neg] at h
  rw [h]
  have : (k : Int) * -d = -(k * d) := by rw [Int.mul_neg]
  omega

/-- The positions of a forward slice as an arithmetic progression. -/
theorem fwd_indices (len : Nat) (s e d : Int) (hs : 0 ≤ s) (he : e ≤ len) (hd : 0 < d) (n : Nat)
    (hn : ∀ k : Nat, k < n ↔ s + k * d < e) :
    ((List.range len).filter fun i : Nat => s ≤ (i : Int) ∧ (i : Int) < e ∧ ((i : Int) - s) % d = 0) =
    (List.range n).map fun k : Nat => (s + k * d).toNat := by
  apply sorted_ext
  · exact List.Pairwise.filter _ List.pairwise_lt_range
  · rw [List.pairwise_map]
    refine List.Pairwise.imp ?_ List.pairwise_lt_range
    intro a b hab
    have h1 : (a : Int) * d < b * d := Int.mul_lt_mul_of_pos_right (by omega) hd
    have h2 : 0 ≤ (a : Int) * d := Int.mul_nonneg (by omega) (by omega)
    omega
  · intro x
    simp only [List.mem_filter, List.mem_range, decide_eq_true_eq, List.mem_map]
    constructor
    · rintro ⟨hx, h1, h2, h3⟩
      have hdvd := Int.dvd_of_emod_eq_zero h3
      obtain ⟨q, hq⟩ := hdvd
      have hq0 : 0 ≤ q := by
        apply Int.not_lt.1; intro hneg
        have := Int.mul_neg_of_pos_of_neg hd hneg
        omega
      refine ⟨q.toNat, ?_, ?_⟩
      · rw [hn]; rw [Int.toNat_of_nonneg hq0, Int.mul_comm]; omega
      · rw [Int.toNat_of_nonneg hq0, Int.mul_comm]; omega
    · rintro ⟨k, hk, rfl⟩
      rw [hn] at hk
      have h2 : 0 ≤ (k : Int) * d := Int.mul_nonneg (by omega) (by omega)
      refine ⟨by omega, by omega, by omega, ?_⟩
      have : ((s + k * d).toNat : Int) - s = k * d := by omega
      rw [this, Int.mul_emod_left]

/-- The positions of a backward slice as an arithmetic progression. -/
theorem bwd_indices (len : Nat) (s e d : Int) (hs : s ≤ len - 1) (he : -1 ≤ e) (hd : d < 0) (n : Nat)
    (hn : ∀ k : Nat, k < n ↔ e < s + k * d) :
    ((List.range len).filter fun i : Nat => (i : Int) ≤ s ∧ e < (i : Int) ∧ (s - (i : Int)) % (-d) = 0).reverse =
    (List.range n).map fun k : Nat => (s + k * d).toNat := by
  rw [← List.reverse_reverse (as := (List.range n).map _)]
  congr 1
  apply sorted_ext
  · exact List.Pairwise.filter _ List.pairwise_lt_range
  · rw [List.pairwise_reverse, List.pairwise_map]
    refine List.Pairwise.imp_of_mem ?_ List.pairwise_lt_range
    intro a b ha hb hab
    simp only [List.mem_range] at ha hb
    rw [hn] at ha hb
    have h1 : (a : Int) * -d < b * -d := Int.mul_lt_mul_of_pos_right (by omega) (by omega)
    rw [Int.mul_neg, Int.mul_neg] at h1
    omega
  · intro x
    simp only [List.mem_filter, List.mem_range, decide_eq_true_eq, List.mem_map, List.mem_reverse]
    constructor
    · rintro ⟨hx, h1, h2, h3⟩
      obtain ⟨q, hq⟩ := Int.dvd_of_emod_eq_zero h3
      have hq0 : 0 ≤ q := by
        apply Int.not_lt.1; intro hneg
        have := Int.mul_neg_of_pos_of_neg (a := -d) (by omega) hneg
        omega
      have e1 : q * d = -(-d * q) := by rw [Int.neg_mul, Int.neg_neg, Int.mul_comm]
      refine ⟨q.toNat, ?_, ?_⟩
      · rw [hn, Int.toNat_of_nonneg hq0]; omega
      · rw [Int.toNat_of_nonneg hq0]; omega
    · rintro ⟨k, hk, rfl⟩
      rw [hn] at hk
      have h2 : 0 ≤ (k : Int) * -d := Int.mul_nonneg (by omega) (by omega)
      rw [Int.mul_neg] at h2
      refine ⟨by omega, by omega, by omega, ?_⟩
      have : s - ((s + k * d).toNat : Int) = k * -d := by rw [Int.mul_neg]; omega
      rw [this, Int.mul_emod_left]

end Snek
