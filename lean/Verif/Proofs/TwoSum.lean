import Verif.Proofs.Round
/-! Sums of two binary32 numbers and their rounding errors, in units of 2^-149. -/
set_option exponentiation.threshold 400
namespace Snek.Fsum

/-- The value of a finite number. -/
def Rep (n : Int) : Prop := ∃ m e : Nat, e ≤ 253 ∧ m < 2 ^ 24 ∧ n.natAbs = m * 2 ^ e

theorem pow_pos2 (k : Nat) : 0 < 2 ^ k := Nat.pow_pos (by decide)

theorem dvd_abs {k : Nat} {d : Int} (h : ((2 ^ k : Nat) : Int) ∣ d) : ∃ m : Nat, d.natAbs = m * 2 ^ k := by
  obtain ⟨c, rfl⟩ := h
  exact ⟨c.natAbs, by rw [Int.natAbs_mul, Int.natAbs_natCast, Nat.mul_comm]⟩

theorem abs_dvd {k m : Nat} {d : Int} (h : d.natAbs = m * 2 ^ k) : ((2 ^ k : Nat) : Int) ∣ d :=
  Int.ofNat_dvd_left.2 ⟨m, by rw [h, Nat.mul_comm]⟩

theorem pow_dvd {a b : Nat} (h : a ≤ b) : ((2 ^ a : Nat) : Int) ∣ ((2 ^ b : Nat) : Int) :=
  Int.natCast_dvd_natCast.2 (Nat.pow_dvd_pow 2 h)

theorem Rep.mk {k : Nat} {d : Int} (h : ((2 ^ k : Nat) : Int) ∣ d) (hb : d.natAbs ≤ 2 ^ 24 * 2 ^ k) (ht : d.natAbs < 2 ^ 277) : Rep d := by
  obtain ⟨m, hm⟩ := dvd_abs h
  have hp := pow_pos2 k
  have hm24 : m ≤ 2 ^ 24 := Nat.le_of_mul_le_mul_right (hm ▸ hb) hp
  by_cases h0 : m = 0
  · exact ⟨0, 0, by omega, by omega, by rw [hm, h0]; omega⟩
  · by_cases hk : k ≤ 253
    · by_cases h24 : m < 2 ^ 24
      · exact ⟨m, k, hk, h24, hm⟩
      · have e : m = 2 ^ 24 := by omega
        subst e
        have : k ≠ 253 := by rintro rfl; rw [hm] at ht; revert ht; decide
        exact ⟨2 ^ 23, k + 1, by omega, by omega, by rw [hm, Nat.pow_succ 2 k]; omega⟩
    · obtain ⟨j, rfl⟩ : ∃ j, k = j + 253 := ⟨k - 253, by omega⟩
      refine ⟨m * 2 ^ j, 253, Nat.le_refl _, ?_, by rw [hm, Nat.pow_add]; ac_rfl⟩
      have : m * 2 ^ j * 2 ^ 253 < 2 ^ 24 * 2 ^ 253 := by
        rw [Nat.mul_assoc, ← Nat.pow_add, ← hm]
        exact ht
      exact Nat.lt_of_mul_lt_mul_right this

theorem Rep.out {d : Int} (h : Rep d) : ∃ k : Nat, k ≤ 253 ∧ ((2 ^ k : Nat) : Int) ∣ d ∧ d.natAbs + 2 ^ k ≤ 2 ^ 24 * 2 ^ k ∧ d.natAbs < 2 ^ 277 := by
  obtain ⟨m, e, he, hm, h⟩ := h
  refine ⟨e, he, abs_dvd h, ?_, ?_⟩
  · rw [h]
    have : (m + 1) * 2 ^ e ≤ 2 ^ 24 * 2 ^ e := Nat.mul_le_mul_right _ hm
    rw [Nat.add_mul] at this
    omega
  · rw [h]
    have : m * 2 ^ e < 2 ^ 24 * 2 ^ e := Nat.mul_lt_mul_of_pos_right hm (pow_pos2 e)
    have h2 : 2 ^ 24 * 2 ^ e ≤ 2 ^ 24 * 2 ^ 253 := Nat.mul_le_mul_left _ (Nat.pow_le_pow_right (by decide) he)
    exact Nat.lt_of_lt_of_le this h2

theorem Rep.neg {d : Int} (h : Rep d) : Rep (-d) := by
  obtain ⟨m, e, a, b, c⟩ := h
  exact ⟨m, e, a, b, by rw [Int.natAbs_neg]; exact c⟩

/-- `r` is the sum `s` rounded: `e` is the exponent of its last place. -/
structure Grid (s r : Int) (e : Nat) : Prop where
  lo : e = 0 ∨ 2 ^ 23 * 2 ^ e ≤ s.natAbs
  hi : s.natAbs < 2 ^ 24 * 2 ^ e
  le : e ≤ 253
  dvd : ((2 ^ e : Nat) : Int) ∣ r
  err : 2 * (s - r).natAbs ≤ 2 ^ e
  even : 2 * (s - r).natAbs = 2 ^ e → ((2 ^ (e + 1) : Nat) : Int) ∣ r
  rep : Rep r
  near : ∀ v, Rep v → (r - s).natAbs ≤ (v - s).natAbs

theorem small_zero {D : Nat} {a : Int} (h : (D : Int) ∣ a) (hl : a.natAbs < D) : a = 0 :=
  Int.eq_zero_of_dvd_of_natAbs_lt_natAbs h (by simpa using hl)

/-- Multiples of a power of two are rounded to multiples of it. -/
theorem Grid.mult {s r : Int} {e k : Nat} (g : Grid s r e) (h : ((2 ^ k : Nat) : Int) ∣ s) : ((2 ^ k : Nat) : Int) ∣ r := by
  by_cases hk : k ≤ e
  · exact Int.dvd_trans (pow_dvd hk) g.dvd
  · have h1 : ((2 ^ e : Nat) : Int) ∣ s - r := Int.dvd_sub (Int.dvd_trans (pow_dvd (by omega)) h) g.dvd
    have hp := pow_pos2 e
    have := small_zero h1 (by have := g.err; omega)
    have e : r = s := by omega
    exact e ▸ h

/-- Exact when the sum is on the grid. -/
theorem Grid.exact_of_dvd {s r : Int} {e : Nat} (g : Grid s r e) (h : ((2 ^ e : Nat) : Int) ∣ s) : r = s := by
  have hp := pow_pos2 e
  have := small_zero (Int.dvd_sub h g.dvd) (by have := g.err; omega)
  omega

theorem Grid.exact_of_rep {s r : Int} {e : Nat} (g : Grid s r e) (h : Rep s) : r = s := by
  have := g.near s h
  omega

/-- Two numbers: their common grid. -/
theorem common {x y : Int} (hx : Rep x) (hy : Rep y) {d : Int}
    (hd : ∀ k : Nat, ((2 ^ k : Nat) : Int) ∣ x → ((2 ^ k : Nat) : Int) ∣ y → ((2 ^ k : Nat) : Int) ∣ d)
    (h1 : d.natAbs ≤ x.natAbs) (h2 : d.natAbs ≤ y.natAbs) : Rep d := by
  obtain ⟨a, _, da, ba, ta⟩ := hx.out
  obtain ⟨b, _, db, bb, tb⟩ := hy.out
  by_cases h : a ≤ b
  · exact Rep.mk (hd a da (Int.dvd_trans (pow_dvd h) db)) (by omega) (by omega)
  · exact Rep.mk (hd b (Int.dvd_trans (pow_dvd (by omega)) da) db) (by omega) (by omega)

/-- The rounding error of a sum is a number. -/
theorem err_rep {x y r : Int} {e : Nat} (hx : Rep x) (hy : Rep y) (g : Grid (x + y) r e) : Rep (x + y - r) := by
  refine common hx hy (fun k a b => Int.dvd_sub (Int.dvd_add a b) (g.mult (Int.dvd_add a b))) ?_ ?_
  · have := g.near y hy; omega
  · have := g.near x hx; omega

/-- The sum less the larger operand is a number. -/
theorem diff_rep {x y r : Int} {e : Nat} (hx : Rep x) (hy : Rep y) (hxy : y.natAbs ≤ x.natAbs) (g : Grid (x + y) r e) : Rep (r - x) := by
  by_cases hex : r = x + y
  · rw [hex, show x + y - x = y by omega]
    exact hy
  have herr := g.err
  have hnd : ¬ ((2 ^ e : Nat) : Int) ∣ x + y := fun h => hex (g.exact_of_dvd h)
  have he0 : e ≠ 0 := by
    rintro rfl
    exact hnd ⟨x + y, by simp⟩
  have hlo : 2 ^ 23 * 2 ^ e ≤ (x + y).natAbs := g.lo.resolve_left he0
  have hhi := g.hi
  have hp := pow_pos2 e
  have hnear := g.near x hx
  obtain ⟨b, _, db, bb, tb⟩ := hy.out
  have herr2 : 2 * (r - x).natAbs ≤ 2 * y.natAbs + 2 ^ e := by omega
  -- no cancellation
  have hc : y.natAbs ≤ (x + y).natAbs := by
    apply Decidable.byContradiction
    intro hc
    have : Rep (x + y) := common hx hy (fun k a b => Int.dvd_add a b) (by omega) (by omega)
    exact hex (g.exact_of_rep this)
  obtain ⟨a, _, da, ba, ta⟩ := hx.out
  have h277 : (r - x).natAbs < 2 ^ 277 := by
    have h1 : 2 ^ e ≤ 2 ^ 253 := Nat.pow_le_pow_right (by decide) g.le
    obtain ⟨b', hb', _, bb', _⟩ := hy.out
    have h2 : y.natAbs + 2 ^ 253 ≤ 2 ^ 277 := by
      have h3 : 2 ^ b' ≤ 2 ^ 253 := Nat.pow_le_pow_right (by decide) hb'
      by_cases hb253 : b' = 253
      · subst hb253
        exact bb'
      · have h4 : 2 ^ b' ≤ 2 ^ 252 := Nat.pow_le_pow_right (by decide) (by omega)
        have h5 : y.natAbs ≤ 2 ^ 24 * 2 ^ 252 := by omega
        have h6 : 2 ^ 24 * 2 ^ 252 + 2 ^ 253 ≤ 2 ^ 277 := by decide +kernel
        omega
    generalize 2 ^ 253 = A at *
    generalize 2 ^ 277 = B at *
    omega
  by_cases hea : e ≤ a
  · have hd : ((2 ^ e : Nat) : Int) ∣ r - x := Int.dvd_sub g.dvd (Int.dvd_trans (pow_dvd hea) da)
    refine Rep.mk hd ?_ h277
    -- a multiple of 2^e below (2^24 + 1) * 2^e
    obtain ⟨m, hm⟩ := dvd_abs hd
    rw [hm] at herr2 ⊢
    apply Nat.mul_le_mul_right
    have : m * 2 ^ e < (2 ^ 24 + 1) * 2 ^ e := by rw [Nat.add_mul]; omega
    have := Nat.lt_of_mul_lt_mul_right this
    omega
  · have hd : ((2 ^ a : Nat) : Int) ∣ r - x := Int.dvd_sub (Int.dvd_trans (pow_dvd (by omega)) g.dvd) da
    have hpa := pow_pos2 a
    have hea1 : e = a + 1 := by
      apply Decidable.byContradiction
      intro hne
      have : 2 ^ (a + 2) ≤ 2 ^ e := Nat.pow_le_pow_right (by decide) (by omega)
      rw [Nat.pow_add] at this
      omega
    subst hea1
    rw [Nat.pow_succ] at *
    refine Rep.mk hd ?_ h277
    omega

end Snek.Fsum
