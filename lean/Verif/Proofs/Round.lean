import Verif.Proofs.Number
/-! `roundMag` rounds to the nearest representable magnitude, ties to even. -/
namespace Snek
open Spec

theorem rne_near (n D j : Nat) (hD : 0 < D) :
    ((rne n D * D : Int) - n).natAbs ≤ ((j * D : Int) - n).natAbs ∧
    (((rne n D * D : Int) - n).natAbs = ((j * D : Int) - n).natAbs → j = rne n D ∨ rne n D % 2 = 0) := by
  have hq := Nat.div_add_mod n D
  have hl := Nat.mod_lt n hD
  unfold rne
  generalize n / D = q at *
  generalize n % D = r at *
  have hj : j ≤ q ∨ j = q + 1 ∨ q + 2 ≤ j := by omega
  have hqc : ((D * q : Nat) : Int) = q * D := by rw [Int.natCast_mul, Int.mul_comm]
  have hqc1 : ((q + 1 : Nat) : Int) * D = q * D + D := by rw [Int.natCast_add, Int.add_mul]; simp
  have hd0 : (0 : Int) < D := by omega
  have key : (j ≤ q ∧ (j = q ∨ (j : Int) * D + D ≤ q * D)) ∨ (j = q + 1 ∧ (j : Int) * D = q * D + D) ∨ (q + 2 ≤ j ∧ q * D + D + D ≤ (j : Int) * D) := by
    rcases hj with h | h | h
    · left
      refine ⟨h, ?_⟩
      rcases Nat.eq_or_lt_of_le h with h | h
      · exact .inl h
      · right
        have : ((j + 1) * D : Int) ≤ q * D := Int.mul_le_mul_of_nonneg_right (by omega) (by omega)
        rw [Int.add_mul] at this; omega
    · right; left; subst h; exact ⟨rfl, hqc1⟩
    · right; right
      refine ⟨h, ?_⟩
      have : ((q + 1 + 1 : Int)) * D ≤ j * D := Int.mul_le_mul_of_nonneg_right (by omega) (by omega)
      rw [Int.add_mul, Int.add_mul] at this; omega
  have hn : (n : Int) = q * D + r := by omega
  have hq2 : j = q → (j : Int) * D = q * D := fun h => by rw [h]
  generalize (j : Int) * D = J at *
  split
  · rename_i hc
    generalize (q : Int) * D = Q at *
    omega
  · rename_i hc
    rw [hqc1]
    generalize (q : Int) * D = Q at *
    omega

theorem roundMag_near (n d m : Nat) (hd : 0 < d) (ho : roundMag n d < 0x7f800000) :
    ((fmag (roundMag n d) * d : Int) - n).natAbs ≤ ((fmag m * d : Int) - n).natAbs ∧
    (((fmag (roundMag n d) * d : Int) - n).natAbs = ((fmag m * d : Int) - n).natAbs →
      fmag m = fmag (roundMag n d) ∨ roundMag n d % 2 = 0) := by
  have ho' : rexp n d * 2 ^ 23 + rne n (d * 2 ^ rexp n d) < 0x7f800000 := by
    rw [roundMag_eq] at ho; omega
  have hR : roundMag n d = rexp n d * 2 ^ 23 + rne n (d * 2 ^ rexp n d) := by rw [roundMag_eq]; omega
  have hf := fmag_roundMag n d hd (by omega)
  obtain ⟨hs1, hs2⟩ := rexp_spec n d hd
  have hr := rne_range n d hd
  rw [hf]
  have hpar : roundMag n d % 2 = rne n (d * 2 ^ rexp n d) % 2 := by rw [hR]; omega
  rw [hpar]
  clear hpar hf ho ho' hR
  generalize he : rexp n d = e at *
  have hp : 0 < 2 ^ e := Nat.pow_pos (by decide)
  have hD : 0 < d * 2 ^ e := Nat.mul_pos hd hp
  have hc : ((rne n (d * 2 ^ e) * 2 ^ e : Nat) : Int) * d = rne n (d * 2 ^ e) * ((d * 2 ^ e : Nat) : Int) := by
    rw [← Int.natCast_mul, ← Int.natCast_mul]; congr 1; ac_rfl
  rw [hc]
  by_cases hm : ∃ j, fmag m = j * 2 ^ e
  · obtain ⟨j, hj⟩ := hm
    have hc' : ((j * 2 ^ e : Nat) : Int) * d = j * ((d * 2 ^ e : Nat) : Int) := by
      rw [← Int.natCast_mul, ← Int.natCast_mul]; congr 1; ac_rfl
    rw [hj, hc']
    obtain ⟨h1, h2⟩ := rne_near n (d * 2 ^ e) j hD
    refine ⟨h1, fun h => ?_⟩
    rcases h2 h with h | h
    · left; rw [h]
    · right; exact h
  · have hlt : fmag m < 2 ^ 23 * 2 ^ e := by
      unfold fmag at hm ⊢
      split at hm
      · have := Nat.mod_lt m (y := 2 ^ 23) (by decide)
        rename_i h0
        rw [if_pos h0]
        calc m % 2 ^ 23 < 2 ^ 23 := this
          _ ≤ 2 ^ 23 * 2 ^ e := Nat.le_mul_of_pos_right _ hp
      · rename_i h0
        rw [if_neg h0]
        have hlt2 := Nat.mod_lt m (y := 2 ^ 23) (by decide)
        have hne : ¬ e ≤ m / 2 ^ 23 - 1 := by
          intro hle
          apply hm
          refine ⟨(2 ^ 23 + m % 2 ^ 23) * 2 ^ (m / 2 ^ 23 - 1 - e), ?_⟩
          rw [Nat.mul_assoc, ← Nat.pow_add]
          congr 2; omega
        calc (2 ^ 23 + m % 2 ^ 23) * 2 ^ (m / 2 ^ 23 - 1) < 2 ^ 24 * 2 ^ (m / 2 ^ 23 - 1) :=
              Nat.mul_lt_mul_of_pos_right (by omega) (Nat.pow_pos (by decide))
          _ = 2 ^ 23 * 2 ^ (m / 2 ^ 23 - 1 + 1) := by rw [Nat.pow_succ]; omega
          _ ≤ 2 ^ 23 * 2 ^ e := Nat.mul_le_mul_left _ (Nat.pow_le_pow_right (by decide) (by omega))
    have he0 : e ≠ 0 := by
      rintro rfl
      exact hm ⟨fmag m, by simp⟩
    have hn : 2 ^ 23 * (d * 2 ^ e) ≤ n := by
      rcases hs1 with h | h
      · exact absurd h he0
      · exact h
    have h1 := (rne_near n (d * 2 ^ e) (2 ^ 23) hD).1
    have h2 : fmag m * d < 2 ^ 23 * (d * 2 ^ e) := by
      have := Nat.mul_lt_mul_of_pos_right hlt hd
      have e1 : 2 ^ 23 * 2 ^ e * d = 2 ^ 23 * (d * 2 ^ e) := by ac_rfl
      omega
    have e3 : (((2 : Nat) ^ 23 : Nat) : Int) * ((d * 2 ^ e : Nat) : Int) = ((2 ^ 23 * (d * 2 ^ e) : Nat) : Int) := by
      rw [← Int.natCast_mul]
    rw [e3] at h1
    have e4 : (fmag m : Int) * d = ((fmag m * d : Nat) : Int) := by rw [← Int.natCast_mul]
    rw [e4]
    generalize 2 ^ 23 * (d * 2 ^ e) = A at *
    generalize (rne n (d * 2 ^ e) : Int) * ((d * 2 ^ e : Nat) : Int) = B at *
    omega

theorem near_sign (A B n : Int) (hA : 0 ≤ A) (hB : 0 ≤ B) (hn : 0 ≤ n) (h : (B - n).natAbs ≤ (A - n).natAbs) (h0 : n = 0 → B = 0) :
    (B - n).natAbs ≤ (-A - n).natAbs ∧ ((B - n).natAbs = (-A - n).natAbs → A = 0 ∧ (B - n).natAbs = (A - n).natAbs) := by omega

theorem natAbs_flip (a b : Int) : (-a - -b).natAbs = (a - b).natAbs := by omega
theorem natAbs_flip' (a b : Int) : (a - -b).natAbs = (-a - b).natAbs := by omega

theorem fval_mag (v : BitVec 32) : fval v = fmag (v.toNat % 2 ^ 31) ∨ fval v = -(fmag (v.toNat % 2 ^ 31) : Int) := by
  have := v.isLt
  unfold fval
  split <;> rename_i hs
  · right
    rw [fneg_iff] at hs
    have : v.toNat % 2 ^ 31 = v.toNat - 2 ^ 31 := by omega
    rw [this]
  · left
    have : v.toNat % 2 ^ 31 = v.toNat := by
      rw [fneg_iff] at hs; omega
    rw [this]

theorem fmk_fin (neg : Bool) (R : Nat) (h : R < 0x7f800000) : (fmk neg R).toNat % 2 ^ 31 = R ∧ (fmk neg R).toNat % 2 = R % 2 := by
  rw [fmk_toNat neg _ (by omega)]
  cases neg <;> simp <;> omega

theorem nearest_fmk (neg : Bool) (n d : Nat) (hd : 0 < d) (ho : roundMag n d < 0x7f800000) :
    Nearest (fmk neg (roundMag n d)) (if neg then -(n : Int) else n) d := by
  obtain ⟨f1, f2⟩ := fmk_fin neg _ ho
  refine ⟨by rw [f1]; exact ho, fun v _ => ?_⟩
  rw [fval_eq_spec, fval_eq_spec, fval_fmk neg _ (Nat.lt_trans ho (by decide)), f2]
  obtain ⟨h1, h2⟩ := roundMag_near n d (v.toNat % 2 ^ 31) hd ho
  have hz := fun h : n = 0 => (by rw [h, roundMag_zero]; exact fmag0 : fmag (roundMag n d) = 0)
  have hvv := fval_mag v
  clear f1 f2 ho
  generalize fmag (v.toNat % 2 ^ 31) = M at *
  generalize fmag (roundMag n d) = F at *
  generalize roundMag n d % 2 = P at *
  generalize fval v = V at *
  have hMp : 0 ≤ (M : Int) * d := Int.mul_nonneg (Int.natCast_nonneg _) (Int.natCast_nonneg _)
  have hFp : 0 ≤ (F : Int) * d := Int.mul_nonneg (Int.natCast_nonneg _) (Int.natCast_nonneg _)
  have hM1 : (M : Int) * d = 0 → M = 0 := by
    intro h; rcases Int.mul_eq_zero.1 h with h | h <;> omega
  have hF0 : (n : Int) = 0 → (F : Int) * d = 0 := by
    intro h; rw [hz (by omega)]; simp
  obtain ⟨g1, g2⟩ := near_sign _ _ n hMp hFp (Int.natCast_nonneg _) h1 hF0
  cases neg <;> rcases hvv with hvv | hvv <;> subst hvv <;>
    simp only [Bool.false_eq_true, if_false, if_true, Int.neg_mul, natAbs_flip', Int.neg_neg]
  · exact ⟨h1, fun h => (h2 h).imp (fun h => by rw [h]) id⟩
  · refine ⟨g1, fun h => ?_⟩
    obtain ⟨h3, h4⟩ := g2 h
    rcases h2 h4 with h5 | h5
    · left; have := hM1 h3; omega
    · exact .inr h5
  · refine ⟨g1, fun h => ?_⟩
    obtain ⟨h3, h4⟩ := g2 h
    rcases h2 h4 with h5 | h5
    · left; have := hM1 h3; omega
    · exact .inr h5
  · exact ⟨h1, fun h => (h2 h).imp (fun h => by rw [h]) id⟩

theorem rexp_le (n d E : Nat) (hd : 0 < d) (h : n < 2 ^ (24 + E) * d) : rexp n d ≤ E := by
  unfold rexp
  split
  · omega
  · have hq : n / d < 2 ^ (24 + E) := Nat.div_lt_of_lt_mul (by rw [Nat.mul_comm]; exact h)
    have h0 : n / d ≠ 0 := by omega
    have := (Nat.log2_lt h0).2 hq
    omega

theorem le_rexp (n d E : Nat) (hd : 0 < d) (hE : 0 < E) (h : 2 ^ (23 + E) * d ≤ n) : E ≤ rexp n d := by
  have hq : 2 ^ (23 + E) ≤ n / d := (Nat.le_div_iff_mul_le hd).2 h
  have h24 : 2 ^ 24 ≤ 2 ^ (23 + E) := Nat.pow_le_pow_right (by decide) (by omega)
  unfold rexp
  rw [if_neg (by omega)]
  have h0 : n / d ≠ 0 := by omega
  have := (Nat.le_log2 h0).2 hq
  omega

/-- Rounding overflows exactly from half way above the largest finite number on. -/
theorem roundMag_over (n d : Nat) (hd : 0 < d) :
    (2 * n < ((2 ^ 24 - 1) * 2 ^ 253 + 2 ^ 277) * d → roundMag n d < 0x7f800000) ∧
    (((2 ^ 24 - 1) * 2 ^ 253 + 2 ^ 277) * d ≤ 2 * n → roundMag n d = 0x7f800000) := by
  have hT : ((2 ^ 24 - 1) * 2 ^ 253 + 2 ^ 277) * d = 2 * (2 ^ 24 * (d * 2 ^ 253)) - d * 2 ^ 253 := by
    have : ((2 ^ 24 - 1) * 2 ^ 253 + 2 ^ 277) = (2 ^ 25 - 1) * 2 ^ 253 := by decide
    rw [this, Nat.mul_assoc, Nat.mul_comm (2 ^ 253) d, Nat.sub_mul]; omega
  rw [hT, roundMag_eq]
  have hr := rne_range n d hd
  have hc1 : 2 ^ (24 + 253) * d = 2 ^ 24 * (d * 2 ^ 253) := by rw [Nat.pow_add]; ac_rfl
  have hc2 : 2 ^ (23 + 253) * d = 2 ^ 23 * (d * 2 ^ 253) := by rw [Nat.pow_add]; ac_rfl
  have hc3 : 2 ^ (23 + 254) * d = 2 ^ 24 * (d * 2 ^ 253) := by rw [← hc1]
  have hup := rexp_le n d 253 hd
  have hlo := le_rexp n d 253 hd (by decide)
  have hlo' := le_rexp n d 254 hd (by decide)
  rw [hc1] at hup; rw [hc2] at hlo; rw [hc3] at hlo'
  have hD0 : 0 < d * 2 ^ 253 := Nat.mul_pos hd (Nat.pow_pos (by decide))
  have hspec := rexp_spec n d hd
  have key : rexp n d = 253 → (2 * n < 2 * (2 ^ 24 * (d * 2 ^ 253)) - d * 2 ^ 253 → rne n (d * 2 ^ rexp n d) < 2 ^ 24) ∧
      (2 * (2 ^ 24 * (d * 2 ^ 253)) - d * 2 ^ 253 ≤ 2 * n → rne n (d * 2 ^ rexp n d) = 2 ^ 24) := by
    intro he
    rw [he] at hr hspec ⊢
    clear hup hlo hlo' hc1 hc2 hc3 hT he
    generalize d * 2 ^ 253 = D at *
    have hq := Nat.div_add_mod n D
    have hl := Nat.mod_lt n hD0
    have hqlt : n / D < 2 ^ 24 := Nat.div_lt_of_lt_mul (by rw [Nat.mul_comm]; exact hspec.2)
    have hcase : n / D = 2 ^ 24 - 1 ∨ n / D + 1 ≤ 2 ^ 24 - 1 := by omega
    unfold rne at hr ⊢
    rcases hcase with h | h
    · rw [h] at hq hr ⊢
      rw [Nat.mul_comm] at hq
      generalize n % D = r at *
      constructor
      · intro h1; rw [if_pos (by omega)]; decide
      · intro h1; rw [if_neg (by omega)]
    · have hm : D * (n / D + 1) ≤ D * (2 ^ 24 - 1) := Nat.mul_le_mul_left D h
      rw [Nat.mul_add, Nat.mul_comm D (2 ^ 24 - 1)] at hm
      constructor
      · intro _; split <;> omega
      · intro h1; omega
  clear hspec hc1 hc2 hc3 hT
  obtain ⟨D, hD⟩ : ∃ D, D = d * 2 ^ 253 := ⟨_, rfl⟩
  rw [← hD] at hup hlo hlo' hD0 key ⊢
  clear hD
  generalize rne n (d * 2 ^ rexp n d) = R at *
  generalize rexp n d = e at *
  constructor
  · intro h
    have he := hup (by omega)
    rcases Nat.eq_or_lt_of_le he with he | he
    · have := (key he).1 h
      subst he; omega
    · omega
  · intro h
    have he := hlo (by omega)
    rcases Nat.eq_or_lt_of_le he with he | he
    · have := (key he.symm).2 h
      subst he; omega
    · have h1 : 2 ^ 23 ≤ R := by rcases hr.1 with h | h <;> omega
      omega

theorem fmk_inf (neg : Bool) : fmk neg 0x7f800000 = if neg then 0xff800000#32 else 0x7f800000#32 := by cases neg <;> decide

theorem rounded_fmk (neg : Bool) (n d : Nat) (hd : 0 < d) (hn : 0 < n ∨ neg = false) :
    Rounded (fmk neg (roundMag n d)) (if neg then -(n : Int) else n) d := by
  have hab : (if neg = true then -(n : Int) else (n : Int)).natAbs = n := by cases neg <;> simp
  obtain ⟨h1, h2⟩ := roundMag_over n d hd
  unfold Rounded
  rw [hab]
  refine ⟨fun h => nearest_fmk neg n d hd (h1 h), fun h => ?_⟩
  rw [h2 h, fmk_inf]
  cases neg
  · simp
  · have : 0 < n := by simpa using hn
    rw [if_pos rfl, if_pos rfl, if_pos (by omega)]

/-- Zero of either sign. -/
theorem rounded_zero (neg : Bool) (d : Nat) (hd : 0 < d) : Rounded (fmk neg 0) 0 d := by
  have h := nearest_fmk neg 0 d hd (by rw [roundMag_zero]; decide)
  rw [roundMag_zero] at h
  refine ⟨fun _ => by cases neg <;> simpa using h, fun h => ?_⟩
  exfalso
  have : 0 < ((2 ^ 24 - 1) * 2 ^ 253 + 2 ^ 277) * d := Nat.mul_pos (by decide) hd
  simp only [Int.natAbs_zero] at h
  omega

theorem rounded_fround (s : Int) (hs : s ≠ 0) : Rounded (fround s) s 1 := by
  have h := rounded_fmk (decide (s < 0)) s.natAbs 1 (by decide) (.inl (by omega))
  have e : (if decide (s < 0) = true then -(s.natAbs : Int) else s.natAbs) = s := by
    by_cases h : s < 0 <;> simp [h] <;> omega
  rw [e] at h
  exact h

end Snek
