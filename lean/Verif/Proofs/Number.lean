import Verif.Proofs.F32
import Verif.Proofs.Cmp
import Verif.Model.Number
import Verif.Spec.Number
/-! Integer arithmetic in binary32 is exact up to 2^24. -/
namespace Snek
open Spec

theorem _root_.Spec.Denotes.fin {u i} (h : Denotes u i) : isFin u = true := by unfold isFin; exact decide_eq_true h.1
theorem _root_.Spec.Denotes.val {u i} (h : Denotes u i) : fval u = i * 2 ^ 149 := by rw [← fval_eq_spec]; exact h.2
theorem _root_.Spec.Denotes.nan {u i} (h : Denotes u i) : isNanF u = false := by
  unfold isNanF; have := h.1; exact decide_eq_false (by omega)
theorem _root_.Spec.Denotes.inf {u i} (h : Denotes u i) : isInfF u = false := by
  unfold isInfF; have := h.1; exact decide_eq_false (by omega)

theorem _root_.Spec.Denotes.mk {u i} (h : isFin u = true) (hv : fval u = i * 2 ^ 149) : Denotes u i := by
  refine ⟨?_, by rw [fval_eq_spec]; exact hv⟩
  unfold isFin at h; exact of_decide_eq_true h

theorem _root_.Spec.Denotes.toPoly {u i} (h : Denotes u i) : floatToPoly u = u := by
  unfold floatToPoly; rw [h.nan]; rfl

theorem mag_int (k d : Nat) (hk : k ≤ 2 ^ 24) (hd : 0 < d) :
    fmag (roundMag (k * 2 ^ 149 * d) d) = k * 2 ^ 149 ∧ roundMag (k * 2 ^ 149 * d) d < 0x7f800000 := by
  have hb : k * 2 ^ 149 < 2 ^ 200 := by
    refine Nat.lt_of_le_of_lt (Nat.mul_le_mul_right (2 ^ 149) hk) ?_
    rw [← Nat.pow_add]; exact Nat.pow_lt_pow_right (by decide) (by decide)
  by_cases h : k < 2 ^ 24
  · exact round_exact _ d k 149 hd rfl h hb
  · have : k = 2 ^ 24 := by omega
    refine round_exact _ d (2 ^ 23) 150 hd ?_ (by decide) hb
    rw [this, ← Nat.pow_add]

theorem natAbs_scale (z : Int) : (z * 2 ^ 149).natAbs = z.natAbs * 2 ^ 149 := by
  rw [Int.natAbs_mul]; rfl

theorem pow149_pos : (0 : Int) < 2 ^ 149 := by decide

theorem scale_neg (z : Int) : (z * 2 ^ 149 < 0) ↔ z < 0 := by
  constructor
  · intro h
    apply Int.not_le.1; intro h'
    have := Int.mul_nonneg h' (Int.le_of_lt pow149_pos)
    omega
  · intro h; exact Int.mul_neg_of_neg_of_pos h pow149_pos

theorem scale_zero (z : Int) : (z * 2 ^ 149 = 0) ↔ z = 0 := by
  constructor
  · intro h
    rcases Int.mul_eq_zero.1 h with h | h
    · exact h
    · exact absurd h (by decide)
  · rintro rfl; rfl

theorem int24_abs {z : Int} (h : Int24 z) : z.natAbs ≤ 2 ^ 24 := by
  obtain ⟨h1, h2⟩ := h; omega

/-- Signed magnitude pattern. -/
theorem denotes_fmk (s : Bool) (m k : Nat) (z : Int) (h : m < 0x7f800000) (hm : fmag m = k * 2 ^ 149)
    (hz : z = if s then -(k : Int) else k) : Denotes (fmk s m) z := by
  apply Denotes.mk (isFin_fmk _ _ h)
  rw [fval_fmk _ _ (by omega), hm, hz]
  cases s <;> simp [Int.neg_mul]

theorem denotes_fround {z : Int} (hz : Int24 z) : Denotes (fround (z * 2 ^ 149)) z := by
  unfold fround
  rw [natAbs_scale]
  have := mag_int z.natAbs 1 (int24_abs hz) (by decide)
  rw [Nat.mul_one] at this
  refine denotes_fmk _ _ z.natAbs z this.2 this.1 ?_
  have e := scale_neg z
  by_cases h : z < 0
  · simp only [e.2 h, decide_true, if_true]; omega
  · have : ¬ z * 2 ^ 149 < 0 := fun h' => h (e.1 h')
    simp only [this, decide_false]; simp; omega

theorem fmag_form (m : Nat) : ∃ c k, fmag m = c * 2 ^ k ∧ c < 2 ^ 24 := by
  unfold fmag
  split
  · exact ⟨m % 2 ^ 23, 0, by simp, by omega⟩
  · exact ⟨_, _, rfl, by omega⟩

theorem fmag0 : fmag 0 = 0 := by decide

theorem denotes_zero (s : Bool) : Denotes (fmk s 0) 0 := by
  refine denotes_fmk s 0 0 0 (by decide) (by rw [fmag0, Nat.zero_mul]) (by simp)

theorem intToF_denotes {z : Int} (hz : Int24 z) : Denotes (intToF z) z := by
  unfold intToF
  split
  · rename_i h; subst h; exact denotes_zero false
  · exact denotes_fround hz

theorem fadd_int {a b : BitVec 32} {x y : Int} (ha : Denotes a x) (hb : Denotes b y) (h : Int24 (x + y)) :
    Denotes (fadd a b) (x + y) := by
  unfold fadd
  simp only [ha.nan, hb.nan, ha.inf, hb.inf, Bool.or_self, Bool.false_eq_true, if_false]
  rw [ha.val, hb.val, ← Int.add_mul]
  split
  · rename_i h0
    rw [(scale_zero _).1 h0]
    exact denotes_zero _
  · exact denotes_fround h

theorem fneg_iff (u : BitVec 32) : fneg u = true ↔ 2 ^ 31 ≤ u.toNat := by unfold fneg; simp

theorem fval_fneg1 (a : BitVec 32) : fval (fneg1 a) = -fval a := by
  unfold fneg1
  rw [fval_fmk _ _ (by omega)]
  have h := fneg_iff a
  have hl := a.isLt
  unfold fval
  cases hn : fneg a
  · have : ¬ 2 ^ 31 ≤ a.toNat := fun h' => by rw [h.2 h'] at hn; exact absurd hn (by decide)
    have e : a.toNat % 2 ^ 31 = a.toNat := by omega
    simp [e]
  · have e : a.toNat % 2 ^ 31 = a.toNat - 2 ^ 31 := by have := h.1 hn; omega
    simp [e]

theorem denotes_neg {a : BitVec 32} {x : Int} (h : Denotes a x) : Denotes (fneg1 a) (-x) := by
  apply Denotes.mk
  · unfold fneg1; exact isFin_fmk _ _ h.1
  · rw [fval_fneg1, h.val, Int.neg_mul]

theorem fsub_int {a b : BitVec 32} {x y : Int} (ha : Denotes a x) (hb : Denotes b y) (h : Int24 (x - y)) :
    Denotes (fsub a b) (x - y) := by
  rw [Int.sub_eq_add_neg] at h ⊢
  exact fadd_int ha (denotes_neg hb) h

/-- The sign bit of a non-zero number. -/
theorem fneg_of {a : BitVec 32} {x : Int} (h : Denotes a x) (hx : x ≠ 0) : fneg a = decide (x < 0) := by
  have hv := h.val
  unfold fval at hv
  cases hn : fneg a
  · rw [hn] at hv
    simp only [Bool.false_eq_true, if_false] at hv
    symm; apply decide_eq_false
    rw [← scale_neg, ← hv]; omega
  · rw [hn] at hv
    simp only [if_true] at hv
    symm; apply decide_eq_true
    have h1 : x * 2 ^ 149 ≤ 0 := by rw [← hv]; omega
    have h2 : x * 2 ^ 149 ≠ 0 := fun h0 => hx ((scale_zero x).1 h0)
    rw [← scale_neg]; omega

theorem roundMag_zero (d : Nat) : roundMag 0 d = 0 := by
  unfold roundMag rne; simp; omega

theorem fmul_int {a b : BitVec 32} {x y : Int} (ha : Denotes a x) (hb : Denotes b y) (h : Int24 (x * y)) :
    Denotes (fmul a b) (x * y) := by
  unfold fmul
  simp only [ha.nan, hb.nan, ha.inf, hb.inf, Bool.or_self, Bool.false_eq_true, if_false]
  rw [ha.val, hb.val, natAbs_scale, natAbs_scale]
  have e : x.natAbs * 2 ^ 149 * (y.natAbs * 2 ^ 149) = (x * y).natAbs * 2 ^ 149 * 2 ^ 149 := by
    rw [Int.natAbs_mul]; ac_rfl
  rw [e]
  have hm := mag_int (x * y).natAbs (2 ^ 149) (int24_abs h) (Nat.pow_pos (by decide))
  by_cases h0 : x * y = 0
  · rw [h0]; simp only [Int.natAbs_zero, Nat.zero_mul, roundMag_zero]; exact denotes_zero _
  · have hx : x ≠ 0 := by rintro rfl; simp at h0
    have hy : y ≠ 0 := by rintro rfl; simp at h0
    refine denotes_fmk _ _ _ _ hm.2 hm.1 ?_
    rw [fneg_of ha hx, fneg_of hb hy]
    by_cases h1 : x < 0 <;> by_cases h2 : y < 0 <;> simp only [h1, h2, decide_true, decide_false]
    · have := Int.mul_pos_of_neg_of_neg h1 h2; simp; omega
    · have := Int.mul_neg_of_neg_of_pos h1 (show 0 < y by omega); simp; omega
    · have := Int.mul_neg_of_pos_of_neg (show 0 < x by omega) h2; simp; omega
    · have := Int.mul_pos (show 0 < x by omega) (show 0 < y by omega); simp; omega

/-- Magnitude of a rounded quotient of 24-bit integers: same integer part, and integral exactly when the quotient is. -/
theorem div_mag (X Y : Nat) (hX : 0 < X) (hX' : X ≤ 2 ^ 24) (hY : 0 < Y) (hY' : Y ≤ 2 ^ 24) :
    roundMag (X * 2 ^ 149 * 2 ^ 149) (Y * 2 ^ 149) < 0x7f800000 ∧
    fmag (roundMag (X * 2 ^ 149 * 2 ^ 149) (Y * 2 ^ 149)) / 2 ^ 149 = X / Y ∧
    (fmag (roundMag (X * 2 ^ 149 * 2 ^ 149) (Y * 2 ^ 149)) % 2 ^ 149 = 0 ↔ X % Y = 0) := by
  have hd : 0 < Y * 2 ^ 149 := Nat.mul_pos hY (Nat.pow_pos (by decide))
  have hdm := Nat.div_add_mod X Y
  have hml := Nat.mod_lt X hY
  have hQ : X / Y ≤ 2 ^ 24 := Nat.le_trans (Nat.div_le_self _ _) hX'
  have hlt : X * 2 ^ 149 * 2 ^ 149 < 2 ^ 200 * (Y * 2 ^ 149) := by
    rw [← Nat.mul_assoc]
    apply Nat.mul_lt_mul_of_pos_right _ (Nat.pow_pos (by decide))
    have h1 : X * 2 ^ 149 ≤ 2 ^ 24 * 2 ^ 149 := Nat.mul_le_mul_right _ hX'
    have h2 : 2 ^ 200 * 1 ≤ 2 ^ 200 * Y := Nat.mul_le_mul_left _ hY
    have h3 : 2 ^ 24 * 2 ^ 149 < 2 ^ 200 := by decide
    exact Nat.lt_of_le_of_lt h1 (Nat.lt_of_lt_of_le h3 (by rw [Nat.mul_one] at h2; exact h2))
  have hnorm : 2 ^ 23 * (Y * 2 ^ 149) ≤ X * 2 ^ 149 * 2 ^ 149 := by
    rw [← Nat.mul_assoc]
    apply Nat.mul_le_mul_right
    have h1 : 2 ^ 23 * Y ≤ 2 ^ 23 * 2 ^ 24 := Nat.mul_le_mul_left _ hY'
    have h2 : 1 * 2 ^ 149 ≤ X * 2 ^ 149 := Nat.mul_le_mul_right _ hX
    have h3 : 2 ^ 23 * 2 ^ 24 ≤ 1 * 2 ^ 149 := by decide
    exact Nat.le_trans h1 (Nat.le_trans h3 h2)
  refine ⟨?_, ?_⟩
  · have ho := rexp_small _ _ hd hlt
    rw [roundMag_eq]
    have : (0x7f800000 - 1 : Nat) < 0x7f800000 := by decide
    exact Nat.lt_of_le_of_lt (Nat.min_le_left _ _) (Nat.lt_of_le_of_lt ho this)
  by_cases hr : X % Y = 0
  · have e : X * 2 ^ 149 * 2 ^ 149 = X / Y * 2 ^ 149 * (Y * 2 ^ 149) := by
      rw [hr, Nat.add_zero] at hdm
      conv => lhs; rw [← hdm]
      ac_rfl
    rw [e, (mag_int (X / Y) _ hQ hd).1]
    simp [hr]
  · have herr := round_err _ _ hd hlt hnorm
    generalize fmag (roundMag (X * 2 ^ 149 * 2 ^ 149) (Y * 2 ^ 149)) = R at *
    have e1 : Y * 2 ^ 149 * R = Y * R * 2 ^ 149 := by ac_rfl
    rw [e1] at herr
    clear hlt hnorm hd e1
    have hp : 0 < 2 ^ 149 := Nat.pow_pos (by decide)
    generalize hW : (2:Nat) ^ 149 = W at *
    -- divide the error bound by W
    have herr' : Y * R = X * W ∨ (2 ^ 24 * (Y * R) < 2 ^ 24 * (X * W) + X * W ∧
        2 ^ 24 * (X * W) < 2 ^ 24 * (Y * R) + X * W) := by
      rcases herr with h | ⟨h1, h2⟩
      · exact Or.inl (Nat.eq_of_mul_eq_mul_right hp h)
      · right
        constructor
        · apply Nat.lt_of_mul_lt_mul_right (a := W)
          rw [Nat.add_mul, Nat.mul_assoc (2 ^ 24), Nat.mul_assoc (2 ^ 24)]; exact h1
        · apply Nat.lt_of_mul_lt_mul_right (a := W)
          rw [Nat.add_mul, Nat.mul_assoc (2 ^ 24), Nat.mul_assoc (2 ^ 24)]; exact h2
    clear herr
    have hXW : X * W = Y * (X / Y) * W + X % Y * W := by rw [← Nat.add_mul, hdm]
    have hXW' : X * W ≤ 2 ^ 24 * W := Nat.mul_le_mul_right _ hX'
    have hrW : 1 * W ≤ X % Y * W := Nat.mul_le_mul_right _ (by omega)
    have hrW' : (X % Y + 1) * W ≤ Y * W := Nat.mul_le_mul_right _ hml
    rw [Nat.add_mul] at hrW'
    generalize X / Y = Q at *
    generalize X % Y = r at *
    have hlow : Q * W < R := by
      apply Nat.lt_of_not_le; intro hle
      have h1 := Nat.mul_le_mul_left Y hle
      rw [← Nat.mul_assoc] at h1
      generalize Y * R = T at *
      generalize Y * Q * W = P at *
      generalize X * W = XW at *
      generalize r * W = rW at *
      omega
    have hhigh : R < (Q + 1) * W := by
      apply Nat.lt_of_not_le; intro hle
      have h1 := Nat.mul_le_mul_left Y hle
      rw [← Nat.mul_assoc, Nat.mul_add, Nat.add_mul, Nat.mul_one] at h1
      generalize Y * R = T at *
      generalize Y * Q * W = P at *
      generalize X * W = XW at *
      generalize r * W = rW at *
      generalize Y * W = YW at *
      omega
    have hq : R / W = Q := by
      rw [Nat.div_eq_iff hp]
      rw [Nat.add_mul] at hhigh
      omega
    refine ⟨hq, ?_⟩
    constructor
    · intro h0
      have := Nat.div_add_mod R W
      rw [hq, h0, Nat.mul_comm W Q] at this
      omega
    · intro h0; exact absurd h0 hr

theorem fdiv_mag {a b : BitVec 32} {x y : Int} (ha : Denotes a x) (hb : Denotes b y) (hy : y ≠ 0) :
    fdiv a b = fmk (fneg a != fneg b) (roundMag (x.natAbs * 2 ^ 149 * 2 ^ 149) (y.natAbs * 2 ^ 149)) := by
  unfold fdiv
  have : ¬ y * 2 ^ 149 = 0 := fun h => hy ((scale_zero y).1 h)
  simp only [ha.nan, hb.nan, ha.inf, hb.inf, Bool.or_self, Bool.false_eq_true, if_false, ha.val, hb.val, natAbs_scale, this]

/-- Floor of a signed magnitude from quotient and remainder. -/
theorem int_floor (R W X Y : Nat) (hW : 0 < W) (hY : 0 < Y) (h1 : R / W = X / Y) (h2 : R % W = 0 ↔ X % Y = 0) :
    (R : Int) / W = (X : Int) / Y ∧ -(R : Int) / W = -(X : Int) / Y := by
  have e1 : (R : Int) / W = (R / W : Nat) := rfl
  have e2 : (X : Int) / Y = (X / Y : Nat) := rfl
  constructor
  · rw [e1, e2, h1]
  · rw [Int.neg_ediv, Int.neg_ediv, e1, e2, h1]
    have s1 : Int.sign (W : Int) = 1 := Int.sign_eq_one_of_pos (by omega)
    have s2 : Int.sign (Y : Int) = 1 := Int.sign_eq_one_of_pos (by omega)
    rw [s1, s2]
    have d1 : (W : Int) ∣ (R : Int) ↔ R % W = 0 := by rw [Int.natCast_dvd_natCast]; exact Nat.dvd_iff_mod_eq_zero
    have d2 : (Y : Int) ∣ (X : Int) ↔ X % Y = 0 := by rw [Int.natCast_dvd_natCast]; exact Nat.dvd_iff_mod_eq_zero
    by_cases h : X % Y = 0
    · rw [if_pos (d1.2 (h2.2 h)), if_pos (d2.2 h)]
    · rw [if_neg (fun h' => h (h2.1 (d1.1 h'))), if_neg (fun h' => h (d2.1 h'))]

theorem floordiv_int {a b : BitVec 32} {x y : Int} (ha : Denotes a x) (hb : Denotes b y) (hx : Int24 x) (hy : Int24 y)
    (h0 : y ≠ 0) : Denotes (floordiv a b) (x.fdiv y) := by
  unfold floordiv
  rw [fdiv_mag ha hb h0]
  by_cases hx0 : x = 0
  · subst hx0
    simp only [Int.natAbs_zero, Nat.zero_mul, roundMag_zero, Int.zero_fdiv]
    unfold ffloor
    rw [isFin_fmk _ 0 (by decide), fval_fmk _ _ (by decide), fmag0]
    simp only [Bool.not_true, Bool.false_eq_true, if_false]
    have : (if (fneg a != fneg b) = true then -((0:Nat) : Int) else ((0:Nat) : Int)) = 0 := by split <;> rfl
    rw [this]
    simp only [Int.zero_ediv, if_true]
    exact denotes_zero _
  · obtain ⟨hf, hq, hm⟩ := div_mag x.natAbs y.natAbs (by omega) (int24_abs hx) (by omega) (int24_abs hy)
    generalize hG : roundMag (x.natAbs * 2 ^ 149 * 2 ^ 149) (y.natAbs * 2 ^ 149) = G at *
    unfold ffloor
    rw [isFin_fmk _ _ hf, fval_fmk _ _ (by omega), fneg_of ha hx0, fneg_of hb h0]
    simp only [Bool.not_true, Bool.false_eq_true, if_false]
    obtain ⟨f1, f2⟩ := int_floor (fmag G) (2 ^ 149) x.natAbs y.natAbs (Nat.pow_pos (by decide)) (by omega) hq hm
    have key : (if (decide (x < 0) != decide (y < 0)) = true then -(fmag G : Int) else (fmag G : Int)) / 2 ^ 149 = x.fdiv y := by
      have e : ((2 ^ 149 : Nat) : Int) = 2 ^ 149 := by rfl
      rw [e] at f1 f2
      by_cases h1 : x < 0 <;> by_cases h2 : y < 0 <;> simp only [h1, h2, decide_true, decide_false]
      · have ex : x = -(x.natAbs : Int) := by omega
        have ey : y = -(y.natAbs : Int) := by omega
        simp only [bne_self_eq_false, Bool.false_eq_true, if_false]
        rw [f1]
        conv => rhs; rw [ex, ey]
        rw [Int.neg_fdiv_neg, Int.fdiv_eq_ediv_of_nonneg _ (by omega)]
      · have ex : x = -(x.natAbs : Int) := by omega
        have ey : y = (y.natAbs : Int) := by omega
        simp only [bne_iff_ne, ne_eq, Bool.true_eq_false, not_false_iff, if_true]
        rw [f2]
        conv => rhs; rw [ex, ey]
        rw [Int.fdiv_eq_ediv_of_nonneg _ (by omega)]
      · have ex : x = (x.natAbs : Int) := by omega
        have ey : y = -(y.natAbs : Int) := by omega
        simp only [bne_iff_ne, ne_eq, Bool.false_eq_true, not_false_iff, if_true]
        rw [f2]
        conv => rhs; rw [ex, ey]
        rw [show (x.natAbs : Int).fdiv (-(y.natAbs : Int)) = (-(-(x.natAbs : Int))).fdiv (-(y.natAbs : Int)) by
            rw [Int.neg_neg], Int.neg_fdiv_neg, Int.fdiv_eq_ediv_of_nonneg _ (by omega)]
      · have ex : x = (x.natAbs : Int) := by omega
        have ey : y = (y.natAbs : Int) := by omega
        simp only [bne_self_eq_false, Bool.false_eq_true, if_false]
        rw [f1]
        conv => rhs; rw [ex, ey]
        rw [Int.fdiv_eq_ediv_of_nonneg _ (by omega)]
    rw [key]
    have hr : Int24 (x.fdiv y) := by
      have := Int.natAbs_fdiv_le_natAbs x y
      obtain ⟨h1, h2⟩ := hx
      constructor <;> omega
    split
    · rename_i hz; rw [hz]; exact denotes_zero _
    · exact denotes_fround hr

theorem fmod_int {a b : BitVec 32} {x y : Int} (ha : Denotes a x) (hb : Denotes b y) (hx : Int24 x) (hy : Int24 y)
    (h0 : y ≠ 0) (hp : Int24 (x.fdiv y * y)) : Denotes (fmod a b) (x.fmod y) := by
  unfold fmod
  have h1 := floordiv_int ha hb hx hy h0
  have h2 := fmul_int h1 hb hp
  have e : x - x.fdiv y * y = x.fmod y := by rw [Int.fmod_def, Int.mul_comm]
  have h3 : Int24 (x - x.fdiv y * y) := by
    rw [e]
    have : (x.fmod y).natAbs ≤ y.natAbs := by
      rcases Int.lt_or_gt_of_ne h0 with h | h
      · have h1 := Int.fmod_lt_of_pos (-x) (show 0 < -y by omega)
        have h2 := Int.fmod_nonneg_of_pos (-x) (show 0 < -y by omega)
        rw [Int.neg_fmod_neg] at h1 h2
        omega
      · have := Int.fmod_lt_of_pos x h
        have := Int.fmod_nonneg_of_pos x h
        omega
    obtain ⟨hy1, hy2⟩ := hy
    constructor <;> omega
  have h4 := fsub_int ha h2 h3
  rw [e] at h4
  exact h4

end Snek
