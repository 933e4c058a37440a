import Verif.Model.F32
import Verif.Spec.Order
/-! Rounding lemmas for binary32. -/
namespace Snek

theorem rne_exact {n d : Nat} (h : n % d = 0) (hd : 0 < d) : rne n d = n / d := by
  unfold rne; rw [h]; simp [hd]

/-- Rounding error is at most half a unit. -/
theorem rne_err (n d : Nat) (hd : 0 < d) :
    2 * (d * rne n d) ≤ 2 * n + d ∧ 2 * n ≤ 2 * (d * rne n d) + d := by
  have h := Nat.div_add_mod n d
  have hl := Nat.mod_lt n hd
  unfold rne
  split
  · constructor <;> rename_i h' <;> omega
  · rename_i h'
    rw [Nat.mul_add]
    omega

theorem rne_bounds (n d lo hi : Nat) (hd : 0 < d) (h1 : lo * d ≤ n) (h2 : n ≤ hi * d) : lo ≤ rne n d ∧ rne n d ≤ hi := by
  have hlo : lo ≤ n / d := (Nat.le_div_iff_mul_le hd).2 h1
  have h := Nat.div_add_mod n d
  have hl := Nat.mod_lt n hd
  unfold rne
  split
  · refine ⟨hlo, ?_⟩
    exact Nat.div_le_of_le_mul (by rw [Nat.mul_comm]; exact h2)
  · rename_i h'
    refine ⟨by omega, ?_⟩
    have : n % d ≠ 0 := by intro h0; apply h'; left; omega
    have : n / d < hi := by
      apply Nat.lt_of_mul_lt_mul_left (a := d)
      rw [Nat.mul_comm d hi]; omega
    omega

theorem log2_bounds {q : Nat} (h : q ≠ 0) : 2 ^ q.log2 ≤ q ∧ q < 2 ^ (q.log2 + 1) :=
  ⟨Nat.log2_self_le h, Nat.lt_log2_self⟩

/-- The bit pattern `e * 2^23 + m` has magnitude `m * 2^e`, for significands in normal position (or `e = 0`). -/
theorem fmag_enc (e m : Nat) (h1 : m < 2 ^ 24) (h2 : e = 0 ∨ 2 ^ 23 ≤ m) : fmag (e * 2 ^ 23 + m) = m * 2 ^ e := by
  unfold fmag
  by_cases hm : m < 2 ^ 23
  · have he : e = 0 := by omega
    subst he
    have : (0 * 2 ^ 23 + m) / 2 ^ 23 = 0 := by omega
    rw [if_pos this]; omega
  · have e1 : (e * 2 ^ 23 + m) / 2 ^ 23 = e + 1 := by omega
    have e2 : (e * 2 ^ 23 + m) % 2 ^ 23 = m - 2 ^ 23 := by omega
    rw [e1, e2, if_neg (by omega)]
    have : 2 ^ 23 + (m - 2 ^ 23) = m := by omega
    rw [this]; rfl

theorem fmag_enc' (e m : Nat) (h1 : m ≤ 2 ^ 24) (h2 : e = 0 ∨ 2 ^ 23 ≤ m) : fmag (e * 2 ^ 23 + m) = m * 2 ^ e := by
  by_cases hm : m < 2 ^ 24
  · exact fmag_enc e m hm h2
  · have hm : m = 2 ^ 24 := by omega
    subst hm
    have h := fmag_enc (e + 1) (2 ^ 23) (by omega) (Or.inr (by omega))
    have e1 : (e + 1) * 2 ^ 23 + 2 ^ 23 = e * 2 ^ 23 + 2 ^ 24 := by omega
    rw [e1] at h
    rw [h, Nat.pow_succ]
    omega

/-- The exponent `roundMag` uses. -/
def rexp (n d : Nat) : Nat := if n / d < 2 ^ 24 then 0 else (n / d).log2 - 23

theorem rexp_spec (n d : Nat) (hd : 0 < d) :
    (rexp n d = 0 ∨ 2 ^ 23 * (d * 2 ^ rexp n d) ≤ n) ∧ n < 2 ^ 24 * (d * 2 ^ rexp n d) := by
  unfold rexp
  have hq := Nat.div_add_mod n d
  have hl := Nat.mod_lt n hd
  split
  · rename_i h
    refine ⟨Or.inl rfl, ?_⟩
    have : d * (n / d + 1) ≤ d * 2 ^ 24 := Nat.mul_le_mul_left d h
    rw [Nat.mul_add] at this
    omega
  · rename_i h
    have h0 : n / d ≠ 0 := by omega
    obtain ⟨ha, hb⟩ := log2_bounds h0
    have h24 : 24 ≤ (n / d).log2 := (Nat.le_log2 h0).2 (by omega)
    obtain ⟨k, hk⟩ : ∃ k, (n / d).log2 = k + 23 := ⟨(n / d).log2 - 23, by omega⟩
    rw [hk] at ha hb ⊢
    have e1 : k + 23 - 23 = k := by omega
    rw [e1]
    constructor
    · right
      have : d * 2 ^ (k + 23) ≤ d * (n / d) := Nat.mul_le_mul_left d ha
      have e : 2 ^ 23 * (d * 2 ^ k) = d * 2 ^ (k + 23) := by
        rw [Nat.pow_add]; ac_rfl
      omega
    · have : d * (n / d + 1) ≤ d * 2 ^ (k + 23 + 1) := Nat.mul_le_mul_left d hb
      have e : 2 ^ 24 * (d * 2 ^ k) = d * 2 ^ (k + 23 + 1) := by
        rw [Nat.add_assoc, Nat.pow_add]; ac_rfl
      rw [Nat.mul_add] at this
      omega

theorem roundMag_eq (n d : Nat) : roundMag n d = min (rexp n d * 2 ^ 23 + rne n (d * 2 ^ rexp n d)) 0x7f800000 := rfl

theorem rne_range (n d : Nat) (hd : 0 < d) :
    (rexp n d = 0 ∨ 2 ^ 23 ≤ rne n (d * 2 ^ rexp n d)) ∧ rne n (d * 2 ^ rexp n d) ≤ 2 ^ 24 := by
  obtain ⟨h1, h2⟩ := rexp_spec n d hd
  have hp : 0 < d * 2 ^ rexp n d := Nat.mul_pos hd (Nat.pow_pos (by decide))
  rcases h1 with h1 | h1
  · exact ⟨Or.inl h1, (rne_bounds n _ 0 (2 ^ 24) hp (by omega) (by omega)).2⟩
  · have := rne_bounds n _ (2 ^ 23) (2 ^ 24) hp h1 (by omega)
    exact ⟨Or.inr this.1, this.2⟩

/-- Magnitude after rounding when there is no overflow. -/
theorem fmag_roundMag (n d : Nat) (hd : 0 < d) (ho : rexp n d * 2 ^ 23 + rne n (d * 2 ^ rexp n d) ≤ 0x7f800000) :
    fmag (roundMag n d) = rne n (d * 2 ^ rexp n d) * 2 ^ rexp n d := by
  rw [roundMag_eq, Nat.min_eq_left ho]
  have := rne_range n d hd
  exact fmag_enc' _ _ this.2 this.1

/-- No overflow below 2^253 units (about 2^104). -/
theorem rexp_small (n d : Nat) (hd : 0 < d) (h : n < 2 ^ 200 * d) :
    rexp n d * 2 ^ 23 + rne n (d * 2 ^ rexp n d) ≤ 0x7f800000 - 1 := by
  have h1 := (rne_range n d hd).2
  have h2 : rexp n d ≤ 200 := by
    unfold rexp
    split
    · omega
    · have hq : n / d < 2 ^ 200 := by
        apply Nat.div_lt_of_lt_mul
        rw [Nat.mul_comm]; exact h
      have h0 : n / d ≠ 0 := by omega
      have := (Nat.log2_lt h0).2 hq
      omega
  have : rexp n d * 2 ^ 23 ≤ 200 * 2 ^ 23 := Nat.mul_le_mul_right _ h2
  refine Nat.le_trans (Nat.add_le_add this h1) (by decide)

/-- Rounding error: either exact or relatively below 2^-24, for results in the normal range. -/
theorem round_err (n d : Nat) (hd : 0 < d) (h : n < 2 ^ 200 * d) (hn : 2 ^ 23 * d ≤ n) :
    d * fmag (roundMag n d) = n ∨
    (2 ^ 24 * (d * fmag (roundMag n d)) < 2 ^ 24 * n + n ∧ 2 ^ 24 * n < 2 ^ 24 * (d * fmag (roundMag n d)) + n) := by
  have ho := rexp_small n d hd h
  rw [fmag_roundMag n d hd (by omega)]
  obtain ⟨h1, h2⟩ := rexp_spec n d hd
  have hp : 0 < d * 2 ^ rexp n d := Nat.mul_pos hd (Nat.pow_pos (by decide))
  have he := rne_err n _ hp
  have hle : 2 ^ 23 * (d * 2 ^ rexp n d) ≤ n := by
    rcases h1 with h1 | h1
    · rw [h1]; simpa using hn
    · exact h1
  have e1 : d * (rne n (d * 2 ^ rexp n d) * 2 ^ rexp n d) = d * 2 ^ rexp n d * rne n (d * 2 ^ rexp n d) := by ac_rfl
  rw [e1]
  clear h ho h1 e1
  generalize d * 2 ^ rexp n d = D at *
  by_cases heq : 2 ^ 23 * D = n
  · left
    have hm : n % D = 0 := by rw [← heq]; exact Nat.mul_mod_left _ _
    rw [rne_exact hm hp]
    have := Nat.div_add_mod n D
    omega
  · right
    generalize D * rne n D = R at *
    omega

/-- A magnitude `m * 2^k` with a 24-bit `m` is represented exactly. -/
theorem round_exact (v d m k : Nat) (hd : 0 < d) (hv : v = m * 2 ^ k) (hm : m < 2 ^ 24) (hb : v < 2 ^ 200) :
    fmag (roundMag (v * d) d) = v ∧ roundMag (v * d) d < 0x7f800000 := by
  have hb' : v * d < 2 ^ 200 * d := Nat.mul_lt_mul_of_pos_right hb hd
  have ho := rexp_small _ d hd hb'
  refine ⟨?_, by rw [roundMag_eq, Nat.min_eq_left (by omega)]; omega⟩
  rw [fmag_roundMag _ d hd (by omega)]
  have hq : v * d / d = v := Nat.mul_div_cancel _ hd
  have hek : rexp (v * d) d ≤ k := by
    unfold rexp; rw [hq]
    split
    · omega
    · rename_i h
      have h0 : v ≠ 0 := by omega
      have : v.log2 < 24 + k := by
        rw [Nat.log2_lt h0, Nat.pow_add, hv]
        exact Nat.mul_lt_mul_of_pos_right hm (Nat.pow_pos (by decide))
      omega
  generalize rexp (v * d) d = e at *
  obtain ⟨j, rfl⟩ := Nat.exists_eq_add_of_le hek
  have hp : 0 < d * 2 ^ e := Nat.mul_pos hd (Nat.pow_pos (by decide))
  have e1 : v * d = m * 2 ^ j * (d * 2 ^ e) := by rw [hv, Nat.pow_add]; ac_rfl
  rw [e1, rne_exact (Nat.mul_mod_left _ _) hp, Nat.mul_div_cancel _ hp, hv, Nat.pow_add]
  ac_rfl

/-! Encodings with sign. -/

theorem fmk_toNat (neg : Bool) (m : Nat) (h : m < 2 ^ 31) : (fmk neg m).toNat = m + if neg then 2 ^ 31 else 0 := by
  unfold fmk
  rw [BitVec.toNat_ofNat]
  apply Nat.mod_eq_of_lt
  split <;> omega

theorem fneg_fmk (neg : Bool) (m : Nat) (h : m < 2 ^ 31) : fneg (fmk neg m) = neg := by
  unfold fneg
  rw [fmk_toNat _ _ h]
  cases neg <;> simp <;> omega

theorem fval_fmk (neg : Bool) (m : Nat) (h : m < 2 ^ 31) : fval (fmk neg m) = if neg then -(fmag m : Int) else fmag m := by
  unfold fval
  rw [fneg_fmk _ _ h, fmk_toNat _ _ h]
  cases neg <;> simp

theorem isFin_fmk (neg : Bool) (m : Nat) (h : m < 0x7f800000) : isFin (fmk neg m) = true := by
  unfold isFin
  rw [fmk_toNat _ _ (by omega)]
  cases neg <;> simp <;> omega

theorem fval_eq_spec (u : BitVec 32) : Spec.f32val u = fval u := by
  have hm : ∀ m, Spec.f32mag m = fmag m := fun _ => rfl
  unfold Spec.f32val fval fneg
  simp only [hm, decide_eq_true_eq]
  by_cases h : u.toNat < 2 ^ 31
  · rw [if_pos h, if_neg (Nat.not_le.2 h)]
  · rw [if_neg h, if_pos (Nat.not_lt.1 h)]

end Snek
