import Verif.Model.Math
import Verif.Proofs.Number
/-!
# C50: math.gcd

`Denotes u x`: the number `u` is the integer `x`. `w` is the width of `int` in bits. `Int.gcd` is the greatest common divisor of Lean's
library: `Int.gcd_dvd_left`, `Int.gcd_dvd_right` and `Int.dvd_gcd` characterise it.
-/
namespace Snek
open Spec

/-- Whatever common divisor above 1 there is, the loop finds the greatest one. -/
theorem gcdLoop_gcd (a b : Nat) (ha : 0 < a) (h : 1 < a.gcd b) : gcdLoop a b = a.gcd b := by
  induction b using Nat.strongRecOn generalizing a with
  | _ b ih =>
    rw [gcdLoop]
    split
    · rename_i hc
      have e : b.gcd (a % b) = a.gcd b := by rw [Nat.gcd_comm, ← Nat.gcd_rec, Nat.gcd_comm]
      rw [ih (a % b) (Nat.mod_lt _ (by omega)) b (by omega) (by rw [e]; exact h), e]
    · rename_i hc
      have h1 : a ≠ 1 := by rintro rfl; rw [Nat.gcd_one_left] at h; omega
      have h2 : b ≠ 1 := by rintro rfl; rw [Nat.gcd_one_right] at h; omega
      have : b = 0 := by omega
      rw [this, Nat.gcd_zero_right]

/-- Arguments without a common divisor: the loop ends at the last remainder but one. -/
theorem gcdLoop_coprime (a b : Nat) (hb : 0 < b) (ha : 1 < a) (h : a.gcd b = 1) : 1 < gcdLoop a b := by
  induction b using Nat.strongRecOn generalizing a with
  | _ b ih =>
    rw [gcdLoop]
    split
    · rename_i hc
      have e : b.gcd (a % b) = a.gcd b := by rw [Nat.gcd_comm, ← Nat.gcd_rec, Nat.gcd_comm]
      refine ih (a % b) (Nat.mod_lt _ (by omega)) b ?_ hc.2 (e.trans h)
      rcases Nat.eq_zero_or_pos (a % b) with h0 | h0
      · rw [h0, Nat.gcd_zero_right] at e; omega
      · exact h0
    · exact ha

theorem gcdLoop_le (a b : Nat) : gcdLoop a b ≤ max a b := by
  induction b using Nat.strongRecOn generalizing a with
  | _ b ih =>
    rw [gcdLoop]
    split
    · rename_i hc
      have := Nat.mod_lt a (show b > 0 by omega)
      have := ih (a % b) this b
      omega
    · omega

/-- The magnitude is that of the low bits. -/
theorem fval_abs (a : BitVec 32) : (fval a).natAbs = fmag (a.toNat % 2 ^ 31) := by
  have ha := a.isLt
  unfold fval
  split
  · rename_i hn
    rw [fneg_iff] at hn
    rw [show a.toNat % 2 ^ 31 = a.toNat - 2 ^ 31 by omega, Int.natAbs_neg, Int.natAbs_natCast]
  · rename_i hn
    rw [fneg_iff] at hn
    rw [show a.toNat % 2 ^ 31 = a.toNat by omega, Int.natAbs_natCast]
/-- The absolute value of an integer, converted to `int`. -/
theorem fabs_int {a : BitVec 32} {x : Int} (h : Denotes a x) (w : Nat) (hw : x.natAbs < 2 ^ (w - 1)) : fToInt w (fabs a) = some x.natAbs := by
  have hm : a.toNat % 2 ^ 31 < 2 ^ 31 := Nat.mod_lt _ (by decide)
  have hv : fval (fabs a) = x.natAbs * 2 ^ 149 := by
    unfold fabs
    rw [fval_fmk _ _ hm, if_neg (by decide), ← fval_abs, h.val, natAbs_scale, Int.natCast_mul, Int.natCast_pow]
    norm_cast
  have hf : isFin (fabs a) = true := isFin_fmk _ _ h.1
  have ht : ftrunc (fabs a) = x.natAbs := by
    unfold ftrunc
    rw [hv]
    exact Int.mul_tdiv_cancel _ (Int.ne_of_gt pow149_pos)
  have h1 : (0 : Int) ≤ 2 ^ (w - 1) := Int.le_of_lt (Int.pow_pos (by decide))
  have h2 : (x.natAbs : Int) < 2 ^ (w - 1) := by exact_mod_cast hw
  unfold fToInt
  rw [ht]
  exact if_pos ⟨hf, by omega, h2⟩

/-- An integer that is a number divided evenly is a number. -/
theorem dvd_pow_mul (k : Nat) : ∀ (g m : Nat), g ∣ m * 2 ^ k → ∃ g1 j, g = g1 * 2 ^ j ∧ g1 ∣ m := by
  induction k with
  | zero => intro g m h; exact ⟨g, 0, by simp, by simpa using h⟩
  | succ k ih =>
    intro g m h
    rcases Nat.mod_two_eq_zero_or_one g with hg | hg
    · obtain ⟨g', rfl⟩ := Nat.dvd_of_mod_eq_zero hg
      rw [Nat.pow_succ, ← Nat.mul_assoc, Nat.mul_comm _ 2] at h
      obtain ⟨g1, j, e, hd⟩ := ih g' m (Nat.dvd_of_mul_dvd_mul_left (by decide) h)
      exact ⟨g1, j + 1, by rw [e, Nat.pow_succ]; ac_rfl, hd⟩
    · have hc : Nat.Coprime g (2 ^ (k + 1)) := by
        apply Nat.Coprime.pow_right
        rw [Nat.Coprime, Nat.gcd_comm, Nat.gcd_rec, hg]; rfl
      exact ⟨g, 0, by simp, hc.dvd_of_dvd_mul_right h⟩

/-- A divisor of an integer that is a number is a number. -/
theorem dvd_denotes {a : BitVec 32} {x : Int} (h : Denotes a x) (hx : x ≠ 0) (g : Nat) (hg : (g : Int) ∣ x) (hb : g < 2 ^ 51) (h0 : 0 < g) :
    Denotes (intToF g) g := by
  obtain ⟨q, k, e, hq⟩ := fmag_form (a.toNat % 2 ^ 31)
  have hv := h.val
  have hm : x.natAbs * 2 ^ 149 = q * 2 ^ k := by
    rw [← natAbs_scale, ← hv, ← e, fval_abs]
  have hd : g * 2 ^ 149 ∣ q * 2 ^ k := by
    rw [← hm]
    exact Nat.mul_dvd_mul_right (by have := Int.natAbs_dvd_natAbs.2 hg; simpa using this) _
  obtain ⟨g1, j, e1, hd1⟩ := dvd_pow_mul k _ _ hd
  have hq0 : q ≠ 0 := by
    rintro rfl
    have : x.natAbs ≠ 0 := by omega
    have := Nat.mul_ne_zero this (show 2 ^ 149 ≠ 0 by decide)
    rw [hm] at this; simp at this
  have hg1 : g1 < 2 ^ 24 := Nat.lt_of_le_of_lt (Nat.le_of_dvd (by omega) hd1) hq
  have hb' : g * 2 ^ 149 < 2 ^ 200 := by
    rw [show (2 : Nat) ^ 200 = 2 ^ 51 * 2 ^ 149 by decide]
    exact Nat.mul_lt_mul_of_pos_right hb (by decide)
  obtain ⟨r1, r2⟩ := round_exact (g * 2 ^ 149) 1 g1 j (by decide) e1 hg1 hb'
  rw [Nat.mul_one] at r1 r2
  unfold intToF
  rw [if_neg (by omega)]
  unfold fround
  have en : ((g : Int) * 2 ^ 149).natAbs = g * 2 ^ 149 := by rw [natAbs_scale, Int.natAbs_natCast]
  rw [en, decide_eq_false (by rw [scale_neg]; omega)]
  exact denotes_fmk false _ g _ r2 r1 (by simp)

section
variable (w : Nat) (hw : w ≤ 32) (a b : BitVec 32) (x y : Int) (ha : Denotes a x) (hb : Denotes b y)
include ha hb

theorem gcdf_eq (hx : x.natAbs < 2 ^ (w - 1)) (hy : y.natAbs < 2 ^ (w - 1)) (hx0 : x ≠ 0) (hy0 : y ≠ 0) :
    gcdf w a b = .ok (floatToPoly (intToF (gcdLoop x.natAbs y.natAbs))) := by
  unfold gcdf
  rw [fabs_int ha w hx, fabs_int hb w hy]
  have : ¬ ((x.natAbs : Int) = 0 ∨ (y.natAbs : Int) = 0) := by omega
  exact if_neg this

include hw

/-- For integers that have a common divisor above 1, the result is the greatest common divisor, exactly. (Missing: integers without one,
and zero, for which the code gives something else, see below.) -/
theorem C50_gcd_partial (hx : x.natAbs < 2 ^ (w - 1)) (hy : y.natAbs < 2 ^ (w - 1)) (hx0 : x ≠ 0) (hy0 : y ≠ 0) (hg : 1 < Int.gcd x y) :
    ∃ u, gcdf w a b = .ok u ∧ Denotes u (Int.gcd x y) := by
  have h1 := gcdLoop_gcd x.natAbs y.natAbs (by omega) hg
  have hd : Denotes (intToF (Int.gcd x y)) (Int.gcd x y) := by
    refine dvd_denotes ha hx0 _ (Int.gcd_dvd_left ..) ?_ (by omega)
    have h2 : Int.gcd x y ≤ x.natAbs := Nat.le_of_dvd (by omega) (Nat.gcd_dvd_left ..)
    have h3 : (2 : Nat) ^ (w - 1) ≤ 2 ^ 51 := Nat.pow_le_pow_right (by decide) (by omega)
    omega
  rw [gcdf_eq w a b x y ha hb hx hy hx0 hy0, h1]
  exact ⟨_, rfl, by show Denotes (floatToPoly (intToF (Int.gcd x y))) _; rw [hd.toPoly]; exact hd⟩

omit hw in
/-- One as the first argument: the result is one. -/
theorem C50_one_partial (hy : y.natAbs < 2 ^ (w - 1)) (hw2 : 2 ≤ w) (hx : x.natAbs = 1) (hy0 : y ≠ 0) : ∃ u, gcdf w a b = .ok u ∧ Denotes u 1 := by
  have h2 : (2 : Nat) ^ 1 ≤ 2 ^ (w - 1) := Nat.pow_le_pow_right (by decide) (by omega)
  rw [gcdf_eq w a b x y ha hb (by omega) hy (by omega) hy0, hx]
  rw [gcdLoop, dif_neg (by omega)]
  have hd : Denotes (intToF (1 : Nat)) 1 := intToF_denotes (z := 1) (by constructor <;> decide)
  exact ⟨_, rfl, by rw [hd.toPoly]; exact hd⟩

omit hw in
/-- Violated: of all pairs of integers whose greatest common divisor is 1, only those that begin with 1 give 1; the others give more. -/
theorem C50_violated_coprime (hx : x.natAbs < 2 ^ (w - 1)) (hy : y.natAbs < 2 ^ (w - 1)) (hx4 : Int24 x) (hy4 : Int24 y)
    (hx1 : 1 < x.natAbs) (hy0 : y ≠ 0) (hg : Int.gcd x y = 1) : ∃ u n, gcdf w a b = .ok u ∧ Denotes u n ∧ 1 < n := by
  have h1 := gcdLoop_coprime x.natAbs y.natAbs (by omega) hx1 hg
  have h2 := gcdLoop_le x.natAbs y.natAbs
  have h3 := int24_abs hx4
  have h4 := int24_abs hy4
  rw [gcdf_eq w a b x y ha hb hx hy (by omega) hy0]
  have hd : Denotes (intToF (gcdLoop x.natAbs y.natAbs : Nat)) (gcdLoop x.natAbs y.natAbs : Nat) := intToF_denotes (by constructor <;> omega)
  exact ⟨_, _, rfl, by rw [hd.toPoly]; exact hd, by omega⟩

omit hw in
/-- Violated: the greatest common divisor of `x` and 0 is `x`, the result is 0. -/
theorem C50_violated_zero (hx : x.natAbs < 2 ^ (w - 1)) (hy : y = 0) : gcdf w a b = .ok 0 := by
  have h0 : (0 : Nat) < 2 ^ (w - 1) := Nat.pow_pos (by decide)
  unfold gcdf
  rw [fabs_int ha w hx, fabs_int hb w (by rw [hy]; exact h0)]
  simp [hy]

end

/-- gcd(12, -18) = 6; gcd(9, 4) = 4. -/
example : Denotes (intToF 12) 12 ∧ Denotes (intToF (-18)) (-18) ∧ gcdf 16 (intToF 12) (intToF (-18)) = .ok (intToF 6) :=
  ⟨intToF_denotes (by constructor <;> decide), intToF_denotes (by constructor <;> decide), by decide +kernel⟩

example : gcdf 32 (intToF 9) (intToF 4) = .ok (intToF 4) := by decide +kernel

end Snek
