import Verif.Proofs.PowRel
import Verif.Proofs.Cmp
/-!
# C85 Powers on the boards without a C mathematics library

`Spec.real` is the value of a number as a real number. `numBinary powf .pow` is `a ** b` (snek-exec.c:350-352) with the `powf` of snek-pow.c.
-/
namespace Snek.Pow
open Snek Spec

theorem v_le : v ≤ 1001 / 1000 / 2 ^ 24 := le_refl _

/-! ## Comparison -/

theorem real_lt {a b : BitVec 32} : f32val a < f32val b ↔ real a < real b := by
  unfold real
  rw [div_lt_div_iff_of_pos_right (by positivity)]
  exact_mod_cast Iff.rfl

theorem lt_real {a b : BitVec 32} (ha : FinNum a) (hb : FinNum b) : fltF a b = decide (f32val a < f32val b) := by
  unfold fltF
  rw [(fin_flags ha).1, (fin_flags hb).1]
  simp [fkey_val]

theorem le_real {a b : BitVec 32} (ha : FinNum a) (hb : FinNum b) : fle a b = true ↔ real a ≤ real b := by
  unfold fle
  rw [(fin_flags ha).1, (fin_flags hb).1]
  simp only [Bool.not_false, Bool.and_self, Bool.true_and, decide_eq_true_eq]
  rw [← not_lt, fkey_val, real_lt, not_lt]

theorem real_zero : real 0 = 0 := by unfold real; rw [show f32val 0 = 0 by decide +kernel]; simp

theorem real_half : FinNum 0x3f000000 ∧ real 0x3f000000 = 1 / 2 := by
  refine ⟨by decide, ?_⟩
  unfold real; rw [show f32val 0x3f000000 = 2 ^ 148 by decide +kernel]; push_cast; norm_num

/-! ## exp -/

theorem exp_le {x : ℝ} (h : x < 64) : Real.exp x ≤ 2 ^ 100 := by
  have h1 : Real.exp x ≤ Real.exp 64 := Real.exp_le_exp.2 h.le
  have h2 : Real.exp 64 = Real.exp 1 ^ 64 := by rw [← Real.exp_nat_mul]; norm_num
  have h3 : Real.exp 1 ^ 64 ≤ 2.7182818286 ^ 64 := pow_le_pow_left₀ (Real.exp_pos _).le Real.exp_one_lt_d9.le 64
  rw [h2] at h1
  exact le_trans h1 (le_trans h3 (by norm_num))

theorem expPos_rel {a : BitVec 32} (ha : FinNum a) (h0 : 0 ≤ real a) (h64 : real a < 64) :
    ∃ k, Rel (expPos a) (Real.exp (real a)) k ∧ k ≤ 1407 ∧ (k : ℝ) ≤ 10 + 44 * real a ∧ (real a < 1 → k ≤ 21) := by
  unfold expPos
  by_cases hh : real a < 1 / 2
  · have : fle 0x3f000000 a = false := by
      rw [Bool.eq_false_iff]; intro h
      have := (le_real real_half.1 ha).1 h
      rw [real_half.2] at this; linarith
    simp only [this, Bool.false_eq_true, if_false]
    unfold series
    rw [squares]
    exact ⟨10, Rel.of_near (sum_near ha rfl h0 hh.le) (Real.one_le_exp h0), by norm_num, by push_cast; linarith, fun _ => by norm_num⟩
  · rw [if_pos ((le_real real_half.1 ha).2 (by rw [real_half.2]; linarith))]
    obtain ⟨f, hf, e1, e2, -, -⟩ := frexp_spec ha (by linarith)
    have f1 : (f : ℝ) < 2 ^ 23 := by exact_mod_cast hf
    have f0 : (0 : ℝ) ≤ f := by positivity
    have m1 : (2 ^ 23 + f : ℝ) / 2 ^ 24 < 1 := by rw [div_lt_one (by norm_num)]; linarith
    have m0 : 1 / 2 ≤ (2 ^ 23 + f : ℝ) / 2 ^ 24 := by rw [le_div_iff₀ (by norm_num)]; linarith
    have zp : (0 : ℝ) < 2 ^ (frexp a).2 := by positivity
    have E0 : 0 ≤ (frexp a).2 := by
      by_contra hc
      have : (2 : ℝ) ^ (frexp a).2 ≤ 2 ^ (-1 : Int) := zpow_le_zpow_right₀ (by norm_num) (by omega)
      have : (2 : ℝ) ^ (-1 : Int) = 1 / 2 := by norm_num
      have : (2 ^ 23 + f : ℝ) / 2 ^ 24 * 2 ^ (frexp a).2 < 1 * 2 ^ (frexp a).2 := mul_lt_mul_of_pos_right m1 zp
      rw [e2] at hh
      exact hh (lt_of_lt_of_le this (by rw [one_mul, ← ‹(2 : ℝ) ^ (-1 : Int) = 1 / 2›]; assumption))
    have E6 : (frexp a).2 ≤ 6 := by
      by_contra hc
      have : (2 : ℝ) ^ (7 : Int) ≤ 2 ^ (frexp a).2 := zpow_le_zpow_right₀ (by norm_num) (by omega)
      have : (2 : ℝ) ^ (7 : Int) = 128 := by norm_num
      nlinarith
    obtain ⟨n, hn⟩ : ∃ n : Nat, (frexp a).2 = n := ⟨(frexp a).2.toNat, by omega⟩
    have hn6 : n ≤ 6 := by omega
    have et : ((frexp a).2 + 1).toNat % 256 = n + 1 := by omega
    obtain ⟨hd1, hd2⟩ := half_exact hf
    simp only [et]
    rw [if_neg (by omega), e1]
    unfold series
    have ar : real a = (2 ^ 23 + f : ℝ) / 2 ^ 25 * 2 ^ (n + 1) := by
      rw [e2, hn, zpow_natCast, pow_succ]; ring
    have b0 : (0 : ℝ) ≤ (2 ^ 23 + f : ℝ) / 2 ^ 25 := by positivity
    have b1 : (2 ^ 23 + f : ℝ) / 2 ^ 25 ≤ 1 / 2 := by rw [div_le_iff₀ (by norm_num)]; linarith
    have s := Rel.of_near (sum_near hd1 hd2 b0 b1) (Real.one_le_exp b0)
    have ex : Real.exp (real a) = Real.exp ((2 ^ 23 + f : ℝ) / 2 ^ 25) ^ 2 ^ (n + 1) := by
      rw [← Real.exp_nat_mul, ar]; congr 1; push_cast; ring
    have p128 : 2 ^ (n + 1) ≤ 2 ^ 7 := Nat.pow_le_pow_right (by norm_num) (by omega)
    have q := Rel.squares (n + 1) s (Real.one_le_exp b0) (by rw [← ex]; exact exp_le h64) (by
      calc (10 + 1) * 2 ^ (n + 1) ≤ (10 + 1) * 2 ^ 7 := Nat.mul_le_mul_left _ p128
        _ ≤ _ := by norm_num)
    rw [← ex] at q
    have kk : (2 : ℝ) ^ (n + 1) ≤ 4 * real a := by
      rw [ar]
      have : 1 / 4 ≤ (2 ^ 23 + f : ℝ) / 2 ^ 25 := by rw [le_div_iff₀ (by norm_num)]; linarith
      have p : (0 : ℝ) < 2 ^ (n + 1) := by positivity
      nlinarith
    refine ⟨_, q, by omega, ?_, fun h1 => ?_⟩
    · have : (((10 + 1) * 2 ^ (n + 1) - 1 : Nat) : ℝ) ≤ ((10 + 1) * 2 ^ (n + 1) : Nat) := by exact_mod_cast Nat.sub_le _ _
      push_cast at this
      linarith
    · have : n = 0 := by
        by_contra hc
        have : (2 : ℝ) ^ 2 ≤ 2 ^ (n + 1) := pow_le_pow_right₀ (by norm_num) (by omega)
        have : 1 / 4 ≤ (2 ^ 23 + f : ℝ) / 2 ^ 25 := by rw [le_div_iff₀ (by norm_num)]; linarith
        rw [ar] at h1
        nlinarith
      subst this
      norm_num

theorem expf_rel {a : BitVec 32} (ha : FinNum a) (h64 : |real a| < 64) :
    ∃ k, Rel (expf a) (Real.exp (real a)) k ∧ k ≤ 1409 ∧ (k : ℝ) ≤ 12 + 44 * |real a| ∧ (|real a| < 1 → k ≤ 23) := by
  unfold expf
  rw [lt_real ha (by decide)]
  by_cases hn : real a < 0
  · rw [abs_of_neg hn] at h64 ⊢
    have : f32val a < f32val 0 := real_lt.2 (by rw [real_zero]; exact hn)
    simp only [this, decide_true, if_true]
    obtain ⟨n1, n2⟩ := real_neg ha
    obtain ⟨k, h1, h2, h3, h4⟩ := expPos_rel n1 (by rw [n2]; linarith) (by rw [n2]; exact h64)
    rw [n2] at h1 h3 h4
    have i := h1.inv (by omega) (le_trans (by norm_num) (Real.one_le_exp (by linarith : 0 ≤ -real a))) (exp_le h64)
    have e : 1 / Real.exp (-real a) = Real.exp (real a) := by rw [Real.exp_neg]; simp
    rw [e] at i
    exact ⟨k + 2, i, by omega, by push_cast; linarith, fun h => by have := h4 h; omega⟩
  · rw [abs_of_nonneg (by linarith)] at h64 ⊢
    have : ¬ f32val a < f32val 0 := by rw [real_lt, real_zero]; exact hn
    simp only [this, decide_false, Bool.false_eq_true, if_false]
    obtain ⟨k, h1, h2, h3, h4⟩ := expPos_rel ha (by linarith) h64
    exact ⟨k, h1, by omega, by linarith, fun h => by have := h4 h; omega⟩

/-- For few errors. -/
theorem pow_near {k : Nat} (hk : k ≤ 1500) : 1 - k * (1003 / 1000) / 2 ^ 24 ≤ (1 - v) ^ k ∧ (1 + v) ^ k ≤ 1 + k * (1003 / 1000) / 2 ^ 24 := by
  have hk' : (k : ℝ) ≤ 1500 := by exact_mod_cast hk
  have hkv : (k : ℝ) * v ≤ 1 / 10000 := by
    have : (k : ℝ) * v ≤ 1500 * v := mul_le_mul_of_nonneg_right hk' v_pos.le
    have : (1500 : ℝ) * v ≤ 1 / 10000 := by unfold v; norm_num
    linarith
  have kv0 : 0 ≤ (k : ℝ) * v := mul_nonneg (by positivity) v_pos.le
  have l : 1 - k * v ≤ (1 - v) ^ k := by
    have h := one_add_mul_le_pow (a := -v) (by linarith [v_lt]) k
    have e : 1 - v = 1 + -v := by ring
    rw [e]; linarith
  have u : (1 + v) ^ k ≤ 1 + 1001 / 1000 * (k * v) := by
    have h1 : (1 + v) ^ k * (1 - v) ^ k ≤ 1 := by
      rw [← mul_pow]; apply pow_le_one₀ <;> nlinarith [v_pos, v_lt]
    have h3 : 0 < (1 + v) ^ k := pow_pos (by linarith [v_pos]) k
    have h4 : (1 + v) ^ k * (1 - k * v) ≤ 1 := le_trans (mul_le_mul_of_nonneg_left l h3.le) h1
    by_contra hc
    have hc := lt_of_not_ge hc
    have : (1 + 1001 / 1000 * (k * v)) * (1 - k * v) < (1 + v) ^ k * (1 - k * v) := mul_lt_mul_of_pos_right hc (by linarith)
    nlinarith
  have c : (1001 / 1000) * (k * v) ≤ k * (1003 / 1000) / 2 ^ 24 := by
    have : (1001 / 1000) * v ≤ (1003 / 1000) / 2 ^ 24 := by unfold v; norm_num
    have := mul_le_mul_of_nonneg_left this (by positivity : (0:ℝ) ≤ k)
    calc _ = (k : ℝ) * ((1001 / 1000) * v) := by ring
      _ ≤ (k : ℝ) * ((1003 / 1000) / 2 ^ 24) := this
      _ = _ := by ring
  exact ⟨by linarith, by linarith⟩

theorem Rel.small {w : BitVec 32} {x : ℝ} {k : Nat} (h : Rel w x k) (hk : k ≤ 1500) : |real w - x| ≤ k * (1003 / 1000) / 2 ^ 24 * x := by
  obtain ⟨l, u⟩ := pow_near hk
  have h1 := mul_le_mul_of_nonneg_left l h.pos.le
  have h2 := mul_le_mul_of_nonneg_left u h.pos.le
  have := h.lo
  have := h.hi
  rw [abs_le]
  constructor <;> linarith

/-- `expf` of any number between -64 and 64 is e to this power, but for a relative error of 2^-24 times 13 + 45 |a|. -/
theorem C85_exp_partial {a : BitVec 32} (ha : FinNum a) (h : |real a| < 64) :
    FinNum (expf a) ∧ |real (expf a) - Real.exp (real a)| ≤ (13 + 45 * |real a|) / 2 ^ 24 * Real.exp (real a) := by
  obtain ⟨k, h1, h2, h3, -⟩ := expf_rel ha h
  refine ⟨h1.fin, le_trans (h1.small (by omega)) ?_⟩
  apply mul_le_mul_of_nonneg_right _ h1.pos.le
  apply div_le_div_of_nonneg_right _ (by positivity)
  have := abs_nonneg (real a)
  nlinarith

/-! ## log -/

/-- One round of Newton's method: from an error `d` to `d - 1 + exp (-d)`, but for rounding. -/
theorem newton_step {m l : BitVec 32} {X d : ℝ} (hm : FinNum m) (hX : real m = X) (h1 : 1 / 2 ≤ X) (h2 : X ≤ 1) (hl : FinNum l) (hd : d = real l - Real.log X)
    (hl1 : |real l| ≤ 3 / 4) (hy : Real.exp (-d) ≤ 21 / 10) :
    FinNum (newton m l) ∧ |real (newton m l) - Real.log X - (d - 1 + Real.exp (-d))| ≤ (231 / 10 * Real.exp (-d) + 45 / 10) / 2 ^ 24 := by
  have X0 : 0 < X := by linarith
  obtain ⟨k, r1, -, -, r4⟩ := expf_rel hl (lt_of_le_of_lt hl1 (by norm_num))
  have k23 := r4 (lt_of_le_of_lt hl1 (by norm_num))
  have er := r1.small (by omega)
  have k23' : (k : ℝ) ≤ 23 := by exact_mod_cast k23
  have xf := r1.fin
  unfold newton
  generalize expf l = w at *
  set x := real w with hx
  set y := Real.exp (-d) with hyd
  have y0 : 0 < y := Real.exp_pos _
  set z := Real.exp (real l) with hz
  have z0 : 0 < z := Real.exp_pos _
  have zy : z * y = X := by
    rw [hz, hyd, ← Real.exp_add, hd, show real l + -(real l - Real.log X) = Real.log X by ring, Real.exp_log X0]
  have er' : |x - z| ≤ 2307 / 100 / 2 ^ 24 * z := by
    refine le_trans er ?_
    apply mul_le_mul_of_nonneg_right _ z0.le
    apply div_le_div_of_nonneg_right _ (by positivity)
    nlinarith
  obtain ⟨ea, eb⟩ := abs_le.1 er'
  have zlo : 1 / 5 ≤ z := by
    have : z * y ≤ z * (21 / 10) := mul_le_mul_of_nonneg_left hy z0.le
    linarith
  have x0 : 0 < x := by nlinarith
  have xlo : 1 / 6 ≤ x := by nlinarith
  -- X / x against y
  have q : |X / x - y| ≤ 231 / 10 / 2 ^ 24 * y := by
    have e : X / x - y = y * ((z - x) / x) := by rw [← zy]; field_simp
    rw [e, abs_mul, abs_of_pos y0, mul_comm]
    apply mul_le_mul_of_nonneg_right _ y0.le
    rw [abs_div, abs_of_pos x0, div_le_iff₀ x0, abs_sub_comm]
    nlinarith
  obtain ⟨qa, qb⟩ := abs_le.1 q
  have Xx0 : 0 < X / x := by positivity
  have Xx : X / x ≤ 211 / 100 := by nlinarith
  have hxX : |x - X| ≤ 12 / 10 * x := by
    rw [abs_le]
    have : X = X / x * x := by field_simp
    constructor <;> nlinarith
  have hD : x ≤ 8 := by
    have : z ≤ Real.exp 1 := Real.exp_le_exp.2 (by linarith [(abs_le.1 hl1).2])
    have := Real.exp_one_lt_d9
    nlinarith
  have D := sub_err xf hm (by rw [hX, ← hx]; nlinarith)
  rw [hX, ← hx] at D
  generalize fsub w m = t at *
  set D' := real t with hD'
  have dx : |D' / x - (1 - X / x)| ≤ 13 / 10 / 2 ^ 24 := by
    have e : D' / x - (1 - X / x) = (D' - (x - X)) / x := by field_simp
    rw [e, abs_div, abs_of_pos x0, div_le_iff₀ x0]
    have : (1 / 2 ^ 150 : ℝ) ≤ 1 / 10 / 2 ^ 24 * (1 / 6) := by norm_num
    have h3 := D.2
    have : |x - X| / 2 ^ 24 ≤ 12 / 10 * x / 2 ^ 24 := by gcongr
    have : (1 / 10 / 2 ^ 24 : ℝ) * (1 / 6) ≤ 1 / 10 / 2 ^ 24 * x := mul_le_mul_of_nonneg_left xlo (by norm_num)
    have e3 : (13 / 10 / 2 ^ 24 : ℝ) * x = 12 / 10 * x / 2 ^ 24 + 1 / 10 / 2 ^ 24 * x := by ring
    linarith
  obtain ⟨da, db⟩ := abs_le.1 dx
  have dlt : |D' / x| ≤ 12 / 10 := by
    rw [abs_le]; constructor
    · norm_num at da ⊢; linarith
    · norm_num at db ⊢; linarith
  have Q := div_err D.1 xf (by rw [← hx]; exact x0.ne') (by rw [← hx, ← hD']; exact le_trans dlt (by norm_num))
  rw [← hx, ← hD'] at Q
  generalize fdiv t w = qq at *
  set Q' := real qq with hQ'
  have qe : |Q' - (1 - y)| ≤ (231 / 10 * y + 25 / 10 + 1 / 100) / 2 ^ 24 := by
    have e : Q' - (1 - y) = (Q' - D' / x) + (D' / x - (1 - X / x)) + (y - X / x) := by ring
    rw [e]
    refine le_trans (abs_add_le _ _) (le_trans (add_le_add (abs_add_le _ _) (le_of_eq (abs_sub_comm _ _))) ?_)
    have h3 := Q.2
    have : |D' / x| / 2 ^ 24 ≤ 12 / 10 / 2 ^ 24 := by gcongr
    have : (1 / 2 ^ 150 : ℝ) ≤ 1 / 100 / 2 ^ 24 := by norm_num
    have e4 : (231 / 10 * y + 25 / 10 + 1 / 100) / 2 ^ 24 = 231 / 10 / 2 ^ 24 * y + 12 / 10 / 2 ^ 24 + 13 / 10 / 2 ^ 24 + 1 / 100 / 2 ^ 24 := by ring
    rw [e4]
    linarith
  obtain ⟨q1, q2⟩ := abs_le.1 qe
  have lq : |real l - Q'| ≤ 19 / 10 := by
    obtain ⟨l1, l2⟩ := abs_le.1 hl1
    rw [abs_le]
    have : (231 / 10 * y + 25 / 10 + 1 / 100) / 2 ^ 24 ≤ 1 / 100 := by
      rw [div_le_iff₀ (by norm_num)]; norm_num; linarith
    constructor <;> linarith
  have S := sub_err hl Q.1 (by rw [← hQ']; exact le_trans lq (by norm_num))
  rw [← hQ'] at S
  refine ⟨S.1, ?_⟩
  have e : real (fsub l qq) - Real.log X - (d - 1 + y) = (real (fsub l qq) - (real l - Q')) + -(Q' - (1 - y)) := by rw [hd]; ring
  rw [e]
  refine le_trans (abs_add_le _ _) ?_
  rw [abs_neg]
  have h3 := S.2
  have : |real l - Q'| / 2 ^ 24 ≤ 19 / 10 / 2 ^ 24 := by gcongr
  have : (1 / 2 ^ 150 : ℝ) ≤ 1 / 100 / 2 ^ 24 := by norm_num
  have e4 : (231 / 10 * y + 45 / 10) / 2 ^ 24 = (231 / 10 * y + 25 / 10 + 1 / 100) / 2 ^ 24 + 19 / 10 / 2 ^ 24 + 9 / 100 / 2 ^ 24 := by ring
  rw [e4]
  linarith [(by norm_num : (1 / 100 / 2 ^ 24 : ℝ) ≤ 9 / 100 / 2 ^ 24)]

/-- `d - 1 + exp (-d)` is about `d²/2`. -/
theorem phi {d : ℝ} (h : |d| ≤ 1) : 0 ≤ d - 1 + Real.exp (-d) ∧ d - 1 + Real.exp (-d) ≤ d ^ 2 / 2 + 2 / 9 * |d| ^ 3 := by
  constructor
  · linarith [Real.add_one_le_exp (-d)]
  · have eb := Real.exp_bound (x := -d) (by rw [abs_neg]; exact h) (n := 3) (by norm_num)
    simp only [Finset.sum_range_succ, Finset.sum_range_zero, Nat.factorial, abs_neg] at eb
    norm_num at eb
    have := (abs_le.1 eb).2
    linarith

/-- A round in numbers: from an error in `[-lo, B]` to one in `[-lo', B']`. -/
theorem newton_round {m l : BitVec 32} {X lo B lo' B' : ℝ} (hm : FinNum m) (hX : real m = X) (h1 : 1 / 2 ≤ X) (h2 : X ≤ 1) (hl : FinNum l)
    (hd1 : -lo ≤ real l - Real.log X) (hd2 : real l - Real.log X ≤ B) (hl1 : |real l| ≤ 3 / 4) {M : ℝ} (hM1 : lo ≤ M) (hM2 : B ≤ M) (hM : M ≤ 7 / 10) {R : ℝ}
    (hR : (231 / 10 * (1 + lo + (M ^ 2 / 2 + 2 / 9 * M ^ 3)) + 45 / 10) / 2 ^ 24 ≤ R) (h21 : 1 + lo + (M ^ 2 / 2 + 2 / 9 * M ^ 3) ≤ 21 / 10)
    (hlo' : R ≤ lo') (hB' : M ^ 2 / 2 + 2 / 9 * M ^ 3 + R ≤ B') :
    FinNum (newton m l) ∧ -lo' ≤ real (newton m l) - Real.log X ∧ real (newton m l) - Real.log X ≤ B' := by
  set d := real l - Real.log X with hd
  have dM : |d| ≤ M := abs_le.2 ⟨by linarith, by linarith⟩
  have M0 : 0 ≤ M := le_trans (abs_nonneg _) dM
  obtain ⟨p1, p2⟩ := phi (d := d) (by linarith)
  have p3 : d - 1 + Real.exp (-d) ≤ M ^ 2 / 2 + 2 / 9 * M ^ 3 := by
    refine le_trans p2 ?_
    have a2 : d ^ 2 ≤ M ^ 2 := by rw [← sq_abs]; gcongr
    have a3 : |d| ^ 3 ≤ M ^ 3 := by gcongr
    linarith
  have y1 : Real.exp (-d) ≤ 1 + lo + (M ^ 2 / 2 + 2 / 9 * M ^ 3) := by linarith
  obtain ⟨f, e⟩ := newton_step hm hX h1 h2 hl hd hl1 (le_trans y1 h21)
  have eR : (231 / 10 * Real.exp (-d) + 45 / 10) / 2 ^ 24 ≤ R := by
    refine le_trans ?_ hR
    gcongr
  obtain ⟨e1, e2⟩ := abs_le.1 (le_trans e eR)
  exact ⟨f, by linarith, by linarith⟩

theorem real_log2 : FinNum log2 ∧ real log2 = 11629080 / 2 ^ 24 := by
  refine ⟨by decide, ?_⟩
  unfold real; rw [show f32val log2 = 11629080 * 2 ^ 125 by decide +kernel]; push_cast; norm_num

theorem log_half {X : ℝ} (h1 : 1 / 2 ≤ X) (h2 : X ≤ 1) : -(6931471808 / 10000000000) ≤ Real.log X ∧ Real.log X ≤ 0 := by
  have X0 : 0 < X := by linarith
  constructor
  · have : Real.log (1 / 2) ≤ Real.log X := Real.log_le_log (by norm_num) h1
    rw [one_div, Real.log_inv] at this
    have := Real.log_two_lt_d9
    norm_num at *
    linarith
  · exact Real.log_nonpos X0.le h2

/-- Five rounds. -/
theorem newtons_near {m : BitVec 32} {X : ℝ} (hm : FinNum m) (hX : real m = X) (h1 : 1 / 2 ≤ X) (h2 : X ≤ 1) :
    Near (newtons m 5 (fneg1 log2)) (Real.log X) (28 / 2 ^ 24) := by
  obtain ⟨L1, L2⟩ := log_half h1 h2
  obtain ⟨n1, n2⟩ := real_neg real_log2.1
  rw [real_log2.2] at n2
  have absl : ∀ {w : BitVec 32} {lo B : ℝ}, lo ≤ 1 / 100 → B ≤ 3 / 4 → -lo ≤ real w - Real.log X → real w - Real.log X ≤ B → |real w| ≤ 3 / 4 := by
    intro w lo B a b c d
    rw [abs_le]; constructor <;> linarith
  obtain ⟨f1, a1, b1⟩ := newton_round (lo := 69315 / 100000) (B := 0 + 1 / 1000000) (M := 69315 / 100000) (R := 52 / 2 ^ 24) (lo' := 52 / 2 ^ 24) (B' := 315 / 1000)
    hm hX h1 h2 n1 (by rw [n2]; norm_num; linarith) (by rw [n2]; norm_num at *; linarith)
    (by rw [n2]; norm_num [abs_le]) (by norm_num) (by norm_num) (by norm_num) (by norm_num) (by norm_num) (by norm_num) (by norm_num)
  obtain ⟨f2, a2, b2⟩ := newton_round (lo := 52 / 2 ^ 24) (B := 315 / 1000) (M := 315 / 1000) (R := 30 / 2 ^ 24) (lo' := 30 / 2 ^ 24) (B' := 57 / 1000)
    hm hX h1 h2 f1 a1 b1
    (absl (by norm_num) (by norm_num) a1 b1) (by norm_num) (by norm_num) (by norm_num) (by norm_num) (by norm_num) (by norm_num) (by norm_num)
  obtain ⟨f3, a3, b3⟩ := newton_round (lo := 30 / 2 ^ 24) (B := 57 / 1000) (M := 57 / 1000) (R := 30 / 2 ^ 24) (lo' := 30 / 2 ^ 24) (B' := 17 / 10000)
    hm hX h1 h2 f2 a2 b2
    (absl (by norm_num) (by norm_num) a2 b2) (by norm_num) (by norm_num) (by norm_num) (by norm_num) (by norm_num) (by norm_num) (by norm_num)
  obtain ⟨f4, a4, b4⟩ := newton_round (lo := 30 / 2 ^ 24) (B := 17 / 10000) (M := 17 / 10000) (R := 30 / 2 ^ 24) (lo' := 30 / 2 ^ 24) (B' := 60 / 2 ^ 24)
    hm hX h1 h2 f3 a3 b3
    (absl (by norm_num) (by norm_num) a3 b3) (by norm_num) (by norm_num) (by norm_num) (by norm_num) (by norm_num) (by norm_num) (by norm_num)
  obtain ⟨f5, a5, b5⟩ := newton_round (lo := 30 / 2 ^ 24) (B := 60 / 2 ^ 24) (M := 60 / 2 ^ 24) (R := 277 / 10 / 2 ^ 24) (lo' := 28 / 2 ^ 24) (B' := 28 / 2 ^ 24)
    hm hX h1 h2 f4 a4 b4
    (absl (by norm_num) (by norm_num) a4 b4) (by norm_num) (by norm_num) (by norm_num) (by norm_num) (by norm_num) (by norm_num) (by norm_num)
  exact ⟨f5, abs_le.2 ⟨a5, b5⟩⟩

/-- `logf` of any positive number is its logarithm but for 30 * 2^-24 and 3 * 2^-24 of it. -/
theorem C85_log {a : BitVec 32} (ha : FinNum a) (h : 0 < real a) :
    FinNum (logf a) ∧ |real (logf a) - Real.log (real a)| ≤ (30 + 3 * |Real.log (real a)|) / 2 ^ 24 := by
  obtain ⟨f, hf, e1, e2, g1, g2⟩ := frexp_spec ha h
  have f1 : (f : ℝ) < 2 ^ 23 := by exact_mod_cast hf
  have f0 : (0 : ℝ) ≤ f := by positivity
  have m1 : (2 ^ 23 + f : ℝ) / 2 ^ 24 ≤ 1 := by rw [div_le_one (by norm_num)]; linarith
  have m0 : 1 / 2 ≤ (2 ^ 23 + f : ℝ) / 2 ^ 24 := by rw [le_div_iff₀ (by norm_num)]; linarith
  obtain ⟨r1, r2, -⟩ := real_fmk 126 f (by norm_num) (by norm_num) hf
  have r2 : real (fmk false (126 * 2 ^ 23 + f)) = (2 ^ 23 + f : ℝ) / 2 ^ 24 := by
    rw [r2]; norm_num; ring
  have llo := Real.log_two_gt_d9
  have lhi := Real.log_two_lt_d9
  unfold logf
  simp only [e1]
  set X := (2 ^ 23 + f : ℝ) / 2 ^ 24 with hX
  have nl : Near (if feq (fmk false (126 * 2 ^ 23 + f)) 0x3f000000 = true then fneg1 log2 else newtons (fmk false (126 * 2 ^ 23 + f)) 5 (fneg1 log2)) (Real.log X) (28 / 2 ^ 24) := by
    split
    · rename_i hq
      have xe : X = 1 / 2 := by
        rw [← r2, ← real_half.2]
        unfold feq at hq
        simp only [Bool.and_eq_true, beq_iff_eq] at hq
        unfold real
        rw [(fkey_val_eq _ _).1 hq.2]
      obtain ⟨n1, n2⟩ := real_neg real_log2.1
      refine ⟨n1, ?_⟩
      rw [n2, real_log2.2, xe, one_div, Real.log_inv, abs_le]
      norm_num at *
      constructor <;> linarith
    · exact newtons_near r1 r2 m0 m1
  obtain ⟨L1, L2⟩ := log_half m0 m1
  have hlog : Real.log (real a) = Real.log X + (frexp a).2 * Real.log 2 := by
    rw [e2, Real.log_mul (by positivity) (by positivity), Real.log_zpow]
  generalize (if feq (fmk false (126 * 2 ^ 23 + f)) 0x3f000000 = true then fneg1 log2 else newtons (fmk false (126 * 2 ^ 23 + f)) 5 (fneg1 log2)) = l at *
  obtain ⟨i1, i2⟩ := real_int (i := (frexp a).2) (by unfold Int24; omega)
  generalize (frexp a).2 = E at *
  have E1 : (E : ℝ) ≤ 148 := by exact_mod_cast (by omega : E ≤ 148)
  have E2 : -148 ≤ (E : ℝ) := by exact_mod_cast g1
  have aE : |(E : ℝ)| ≤ 148 := abs_le.2 ⟨E2, E1⟩
  have aE0 := abs_nonneg (E : ℝ)
  have Ec : |(E : ℝ) * (11629080 / 2 ^ 24)| = |(E : ℝ)| * (11629080 / 2 ^ 24) := by rw [abs_mul, abs_of_pos (by norm_num : (0:ℝ) < 11629080 / 2 ^ 24)]
  have P := mul_err i1 real_log2.1 (by rw [i2, real_log2.2, Ec]; norm_num; linarith)
  rw [i2, real_log2.2, Ec] at P
  have Pn : Near (fmul (intToF E) log2) (E * Real.log 2) (75 / 100 / 2 ^ 24 * |(E : ℝ)| + 1 / 2 ^ 150) := by
    refine ⟨P.1, ?_⟩
    have e : real (fmul (intToF E) log2) - E * Real.log 2 = (real (fmul (intToF E) log2) - E * (11629080 / 2 ^ 24)) + E * (11629080 / 2 ^ 24 - Real.log 2) := by ring
    rw [e]
    refine le_trans (abs_add_le _ _) ?_
    have c : |11629080 / 2 ^ 24 - Real.log 2| ≤ 4 / 100 / 2 ^ 24 := by
      rw [abs_le]; norm_num at *; constructor <;> linarith
    rw [abs_mul]
    have c' := mul_le_mul_of_nonneg_left c aE0
    have := P.2
    have : |(E : ℝ)| * (11629080 / 2 ^ 24) / 2 ^ 24 ≤ |(E : ℝ)| * (70 / 100) / 2 ^ 24 :=
      div_le_div_of_nonneg_right (mul_le_mul_of_nonneg_left (by norm_num) aE0) (by norm_num)
    have e5 : 75 / 100 / 2 ^ 24 * |(E : ℝ)| = |(E : ℝ)| * (70 / 100) / 2 ^ 24 + |(E : ℝ)| * (5 / 100 / 2 ^ 24) := by ring
    have : |(E : ℝ)| * (4 / 100 / 2 ^ 24) ≤ |(E : ℝ)| * (5 / 100 / 2 ^ 24) := mul_le_mul_of_nonneg_left (by norm_num) aE0
    linarith
  have Elog : |(E : ℝ)| * Real.log 2 ≤ |Real.log (real a)| + 7 / 10 := by
    have : |(E : ℝ)| * Real.log 2 = |Real.log (real a) - Real.log X| := by
      rw [hlog, add_sub_cancel_left, abs_mul, abs_of_pos (by linarith : 0 < Real.log 2)]
    rw [this]
    refine le_trans (abs_sub _ _) ?_
    have : |Real.log X| ≤ 7 / 10 := abs_le.2 ⟨by linarith, by linarith⟩
    linarith
  have EL : |(E : ℝ)| ≤ 144275 / 100000 * |Real.log (real a)| + 102 / 100 := by nlinarith
  have S := nl.add Pn (M := |Real.log (real a)|) (by rw [hlog]) (by
    have := abs_nonneg (Real.log (real a))
    have : |Real.log (real a)| ≤ 200 := by
      rw [hlog]
      refine le_trans (abs_add_le _ _) ?_
      rw [abs_mul, abs_of_pos (by linarith : 0 < Real.log 2)]
      have : |Real.log X| ≤ 7 / 10 := abs_le.2 ⟨by linarith, by linarith⟩
      nlinarith
    norm_num
    linarith)
  rw [hlog.symm] at S
  refine ⟨S.fin, le_trans S.err ?_⟩
  have A0 := abs_nonneg (Real.log (real a))
  generalize |Real.log (real a)| = A at *
  norm_num at *
  linarith

/-- `w` is `x`, of either sign, but for `k` relative errors. -/
structure SRel (w : BitVec 32) (x : ℝ) (k : Nat) : Prop where
  fin : FinNum w
  ne : x ≠ 0
  lo : (1 - v) ^ k ≤ real w / x
  hi : real w / x ≤ (1 + v) ^ k

/-- What a power of a base may be. -/
def Range (x : ℝ) : Prop := 1 / 2 ^ 100 ≤ |x| ∧ |x| ≤ 2 ^ 120

theorem SRel.exact {w : BitVec 32} (h : FinNum w) (h0 : real w ≠ 0) : SRel w (real w) 0 := ⟨h, h0, by simp [h0], by simp [h0]⟩

theorem SRel.mul {a b : BitVec 32} {x y : ℝ} {j k : Nat} (ha : SRel a x j) (hb : SRel b y k) (hjk : j + k ≤ 2 ^ 20) (hr : Range (x * y)) :
    SRel (fmul a b) (x * y) (j + k + 1) := by
  have p1 : 0 < (1 - v) := by linarith [v_lt]
  have p2 : 0 < (1 + v) := by linarith [v_pos]
  have xy : x * y ≠ 0 := mul_ne_zero ha.ne hb.ne
  have axy : 0 < |x * y| := abs_pos.2 xy
  have ta := lt_of_lt_of_le (pow_pos p1 j) ha.lo
  have tb := lt_of_lt_of_le (pow_pos p1 k) hb.lo
  obtain ⟨t, ht⟩ : ∃ t, t = real a / x * (real b / y) := ⟨_, rfl⟩
  have t0 : 0 < t := by rw [ht]; exact mul_pos ta tb
  have lo : (1 - v) ^ (j + k) ≤ t := by rw [ht, pow_add]; exact mul_le_mul ha.lo hb.lo (pow_nonneg p1.le k) ta.le
  have hi : t ≤ (1 + v) ^ (j + k) := by rw [ht, pow_add]; exact mul_le_mul ha.hi hb.hi tb.le (pow_nonneg p2.le j)
  have e : real a * real b = t * (x * y) := by
    have := ha.ne
    have := hb.ne
    rw [ht]; field_simp
  have ae : |real a * real b| = t * |x * y| := by rw [e, abs_mul, abs_of_pos t0]
  have l2 : 1 / 2 ^ 101 ≤ t * |x * y| := by
    have h1 := le_trans (low_half hjk) lo
    have h : (1 / 2 : ℝ) * (1 / 2 ^ 100) ≤ t * |x * y| := mul_le_mul h1 hr.1 (by norm_num) t0.le
    have : (1 / 2 ^ 101 : ℝ) = 1 / 2 * (1 / 2 ^ 100) := by norm_num
    linarith
  have u2 : t * |x * y| ≤ 2 ^ 127 := by
    have h1 := le_trans hi (high_two hjk)
    have h : t * |x * y| ≤ 2 * 2 ^ 120 := mul_le_mul h1 hr.2 axy.le (by norm_num)
    have : (2 * 2 ^ 120 : ℝ) ≤ 2 ^ 127 := by norm_num
    linarith
  obtain ⟨f, er⟩ := mul_err ha.fin hb.fin (by rw [ae]; exact u2)
  rw [ae, e] at er
  have small : (1 / 2 ^ 150 : ℝ) ≤ t * |x * y| * (v - 1 / 2 ^ 24) := by
    have : (1 / 2 ^ 150 : ℝ) ≤ 1 / 2 ^ 101 * (v - 1 / 2 ^ 24) := by unfold v; norm_num
    have h : 1 / 2 ^ 101 * (v - 1 / 2 ^ 24) ≤ t * |x * y| * (v - 1 / 2 ^ 24) := mul_le_mul_of_nonneg_right l2 (by unfold v; norm_num)
    linarith
  have er2 : |real (fmul a b) - t * (x * y)| ≤ t * v * |x * y| := by
    have : t * v * |x * y| = t * |x * y| / 2 ^ 24 + t * |x * y| * (v - 1 / 2 ^ 24) := by ring
    linarith
  have er3 : |real (fmul a b) / (x * y) - t| ≤ t * v := by
    have : real (fmul a b) / (x * y) - t = (real (fmul a b) - t * (x * y)) / (x * y) := by rw [sub_div, mul_div_assoc, div_self xy, mul_one]
    rw [this, abs_div, div_le_iff₀ axy]
    exact er2
  obtain ⟨e1, e2⟩ := abs_le.1 er3
  refine ⟨f, xy, ?_, ?_⟩
  · have := mul_le_mul_of_nonneg_right lo p1.le
    rw [pow_succ]; linarith
  · have := mul_le_mul_of_nonneg_right hi p2.le
    rw [pow_succ]; linarith

/-- Both not less than 1 in size, or both not more. -/
def Side (x y : ℝ) : Prop := (1 ≤ |x| ∧ 1 ≤ |y|) ∨ (|x| ≤ 1 ∧ |y| ≤ 1)

theorem Range.part {x y : ℝ} (h : Range (x * y)) (s : Side x y) : Range x := by
  have e : |x * y| = |x| * |y| := abs_mul x y
  obtain ⟨h1, h2⟩ := h
  rw [e] at h1 h2
  have := abs_nonneg x
  have := abs_nonneg y
  rcases s with ⟨s1, s2⟩ | ⟨s1, s2⟩
  · exact ⟨le_trans (by norm_num) s1, by nlinarith⟩
  · exact ⟨by nlinarith, le_trans s1 (by norm_num)⟩

theorem Side.mul {x y z : ℝ} (a : Side x z) (b : Side y z) (c : Side x y) : Side (x * y) z := by
  have := abs_nonneg x
  have := abs_nonneg y
  unfold Side at *
  rw [abs_mul]
  rcases a with ⟨a1, a2⟩ | ⟨a1, a2⟩ <;> rcases c with ⟨c1, c2⟩ | ⟨c1, c2⟩ <;> rcases b with ⟨b1, b2⟩ | ⟨b1, b2⟩
  all_goals first
    | (left; exact ⟨by nlinarith, by assumption⟩)
    | (right; exact ⟨by nlinarith, by assumption⟩)

theorem side_pow {x y : ℝ} (h : Side x y) (n : Nat) : Side x (y ^ n) := by
  unfold Side at *
  rw [abs_pow]
  rcases h with ⟨a, b⟩ | ⟨a, b⟩
  · exact .inl ⟨a, one_le_pow₀ b⟩
  · exact .inr ⟨a, pow_le_one₀ (abs_nonneg y) b⟩

theorem Side.symm {x y : ℝ} (h : Side x y) : Side y x := by
  rcases h with ⟨a, b⟩ | ⟨a, b⟩
  · exact .inl ⟨b, a⟩
  · exact .inr ⟨b, a⟩

theorem Side.self (x : ℝ) : Side x x := by
  rcases le_total 1 |x| with h | h
  · exact .inl ⟨h, h⟩
  · exact .inr ⟨h, h⟩

theorem ipowLoop_rel (x : Nat) : ∀ (r a : BitVec 32) (ρ α : ℝ) (j k : Nat), SRel r ρ j → SRel a α k → Side ρ α → Range (ρ * α ^ x) →
    j + (k + 1) * x ≤ 2 ^ 19 → SRel (ipowLoop r a x) (ρ * α ^ x) (j + (k + 1) * x) := by
  induction x using Nat.strongRecOn with
  | _ x ih =>
    intro r a ρ α j k hr ha hs hR hB
    unfold ipowLoop
    by_cases hx : x = 0
    · subst hx; simpa using hr
    · rw [dif_neg hx]
      by_cases h1 : x / 2 = 0
      · have hx1 : x = 1 := by omega
        subst hx1
        rw [if_pos (by decide)]
        unfold ipowLoop
        simp only [show 1 / 2 = 0 from rfl, dif_pos]
        rw [pow_one] at hR ⊢
        have := hr.mul ha (by omega) hR
        rw [Nat.mul_one, ← Nat.add_assoc]; exact this
      · have hk : k + k ≤ 2 ^ 20 := by nlinarith [(by omega : 2 ≤ x)]
        have sq : Side (α * α) ρ := Side.mul hs.symm hs.symm (Side.self α)
        have sα : Side (α * α) α := Side.mul (Side.self α) (Side.self α) (Side.self α)
        have ra : Range (α * α) := by
          refine Range.part (y := ρ * α ^ (x - 2)) ?_ ?_
          · have : α * α * (ρ * α ^ (x - 2)) = ρ * α ^ x := by
              conv => rhs; rw [show x = (x - 2) + 2 by omega, pow_add]
              ring
            rw [this]; exact hR
          · refine (Side.mul sq.symm (side_pow sα (x - 2)).symm (side_pow hs _)).symm
        have ha2 := ha.mul ha hk ra
        have epow : (α * α) ^ (x / 2) = α ^ (2 * (x / 2)) := by rw [pow_mul, pow_two]
        by_cases hodd : x % 2 = 1
        · rw [if_pos hodd]
          have e : ρ * α ^ x = ρ * α * (α * α) ^ (x / 2) := by
            rw [epow, mul_assoc, ← pow_succ']
            congr 2; omega
          have rr : Range (ρ * α) := by
            rw [e] at hR
            exact hR.part (side_pow (Side.mul sq.symm sα.symm hs) _)
          have hkk : k ≤ (k + 1) * x := by nlinarith [(by omega : 1 ≤ x)]
          have hr2 := hr.mul ha (by omega) rr
          have en : j + (k + 1) * x = (j + k + 1) + ((k + k + 1) + 1) * (x / 2) := by
            have : x = 2 * (x / 2) + 1 := by omega
            generalize x / 2 = q at *
            subst this; ring
          rw [en] at hB ⊢
          rw [e] at hR ⊢
          exact ih _ (by omega) _ _ _ _ _ _ hr2 ha2 (Side.mul sq.symm sα.symm hs) hR hB
        · rw [if_neg hodd]
          have e : ρ * α ^ x = ρ * (α * α) ^ (x / 2) := by
            rw [epow]; congr 2; omega
          have en : j + (k + 1) * x = j + ((k + k + 1) + 1) * (x / 2) := by
            have : x = 2 * (x / 2) := by omega
            generalize x / 2 = q at *
            subst this; ring
          rw [en] at hB ⊢
          rw [e] at hR ⊢
          exact ih _ (by omega) _ _ _ _ _ _ hr ha2 sq.symm hR hB

theorem SRel.small {w : BitVec 32} {x : ℝ} {k : Nat} (h : SRel w x k) (hk : k ≤ 1500) : |real w - x| ≤ k * (1003 / 1000) / 2 ^ 24 * |x| := by
  obtain ⟨l, u⟩ := pow_near hk
  have := h.lo
  have := h.hi
  have hne := h.ne
  have e : real w - x = (real w / x - 1) * x := by rw [sub_mul, div_mul_cancel₀ _ hne, one_mul]
  rw [e, abs_mul]
  apply mul_le_mul_of_nonneg_right _ (abs_nonneg x)
  rw [abs_le]
  constructor <;> linarith

/-- Powers of bases of either sign with the exponents 0 to 255, where the power is neither tiny nor huge. -/
theorem C85_ipow {a : BitVec 32} (ha : FinNum a) (h0 : real a ≠ 0) {x : Nat} (hx : x < 256)
    (h1 : 1 / 2 ^ 100 ≤ |real a| ^ x) (h2 : |real a| ^ x ≤ 2 ^ 120) :
    FinNum (ipow a x) ∧ |real (ipow a x) - real a ^ x| ≤ 101 / 100 * x / 2 ^ 24 * |real a| ^ x := by
  have one := real_int (i := 1) (by unfold Int24; omega)
  have r1 : real (intToF 1) = 1 := by rw [one.2]; simp
  have R := ipowLoop_rel x (intToF 1) a 1 (real a) 0 0 (by simpa [r1] using SRel.exact one.1 (by rw [r1]; norm_num)) (SRel.exact ha h0)
    (by rcases le_total 1 |real a| with h | h
        · exact .inl ⟨by simp, h⟩
        · exact .inr ⟨by simp, h⟩)
    (by rw [one_mul, Range, abs_pow]; exact ⟨h1, h2⟩) (by omega)
  rw [one_mul] at R
  have S := R.small (by omega)
  refine ⟨R.fin, le_trans S ?_⟩
  rw [abs_pow]
  apply mul_le_mul_of_nonneg_right _ (by positivity)
  push_cast
  have : (0:ℝ) ≤ x := by positivity
  apply div_le_div_of_nonneg_right _ (by norm_num)
  linarith

theorem _root_.Snek.finNum_toPoly {u : BitVec 32} (h : FinNum u) : floatToPoly u = u := by
  have : isNanF u = false := by unfold isNanF; unfold FinNum at h; exact decide_eq_false (by omega)
  unfold floatToPoly; rw [this]; rfl

/-- `a ** b` on the boards with snek-pow.c, for positive `a` and `b` up to 2^16 in size, where `a ** b` is between exp (-60) and exp 60. -/
theorem C85_pow_partial {a b : BitVec 32} (ha : FinNum a) (h : 0 < real a) (hb : FinNum b) (hb1 : |real b| ≤ 2 ^ 16)
    (hab : |real b * Real.log (real a)| ≤ 60) :
    ∃ u, numBinary powf .pow a b = .ok u ∧ FinNum u ∧
      |real u - real a ^ real b| ≤ (25 + 36 * |real b| + 60 * |real b * Real.log (real a)|) / 2 ^ 24 * real a ^ real b := by
  have hp : real a ^ real b = Real.exp (real b * Real.log (real a)) := by rw [Real.rpow_def_of_pos h, mul_comm]
  suffices hs : FinNum (powf a b) ∧ |real (powf a b) - real a ^ real b| ≤ (25 + 36 * |real b| + 60 * |real b * Real.log (real a)|) / 2 ^ 24 * real a ^ real b from
    ⟨powf a b, by simp only [numBinary, finNum_toPoly hs.1], hs.1, hs.2⟩
  have pos : 0 < real a ^ real b := Real.rpow_pos_of_pos h _
  unfold powf powfSmall
  split
  · rename_i hc
    obtain ⟨-, c1, c2, c3⟩ := hc
    obtain ⟨x, hx⟩ : ∃ x : Nat, ftrunc b = x := ⟨(ftrunc b).toNat, by omega⟩
    rw [hx] at c1 c2 c3 ⊢
    rw [Int.toNat_natCast]
    have hbx : real b = x := by
      have hi := real_int (i := x) (by unfold Int24; omega)
      have : real (intToF x) = real b := by
        unfold feq at c3
        simp only [Bool.and_eq_true, beq_iff_eq] at c3
        unfold real; rw [(fkey_val_eq _ _).1 c3.2]
      rw [← this, hi.2]; simp
    have hpx : real a ^ real b = real a ^ x := by rw [hbx, Real.rpow_natCast]
    have bnd : Real.exp 60 ≤ 2 ^ 100 := exp_le (by norm_num)
    have lo : 1 / 2 ^ 100 ≤ |real a| ^ x := by
      rw [abs_of_pos h, ← hpx, hp]
      have : Real.exp (-60) ≤ Real.exp (real b * Real.log (real a)) := Real.exp_le_exp.2 (abs_le.1 hab).1
      rw [Real.exp_neg] at this
      refine le_trans ?_ this
      rw [one_div]
      exact inv_anti₀ (Real.exp_pos _) bnd
    have hi : |real a| ^ x ≤ 2 ^ 120 := by
      rw [abs_of_pos h, ← hpx, hp]
      have : Real.exp (real b * Real.log (real a)) ≤ Real.exp 60 := Real.exp_le_exp.2 (abs_le.1 hab).2
      exact le_trans this (le_trans bnd (by norm_num))
    obtain ⟨f, e⟩ := C85_ipow ha h.ne' (by omega : x < 256) lo hi
    rw [abs_of_pos h, ← hpx] at e
    refine ⟨f, le_trans e ?_⟩
    apply mul_le_mul_of_nonneg_right _ pos.le
    apply div_le_div_of_nonneg_right _ (by norm_num)
    rw [hbx, abs_of_nonneg (by positivity : (0:ℝ) ≤ x)]
    have : (0:ℝ) ≤ x := by positivity
    have := abs_nonneg ((x : ℝ) * Real.log (real a))
    linarith
  · unfold gen
    obtain ⟨l1, l2⟩ := C85_log ha h
    obtain ⟨L, hL⟩ : ∃ L, L = Real.log (real a) := ⟨_, rfl⟩
    obtain ⟨B, hB⟩ : ∃ B, B = real b := ⟨_, rfl⟩
    rw [← hL] at l2 hab hp ⊢
    rw [← hB] at hb1 hab hp ⊢
    have B0 := abs_nonneg B
    have P0 := abs_nonneg (B * L)
    have e0 : |real (logf a) * B - B * L| ≤ (30 * |B| + 3 * |B * L|) / 2 ^ 24 := by
      have : real (logf a) * B - B * L = (real (logf a) - L) * B := by ring
      rw [this, abs_mul]
      refine le_trans (mul_le_mul_of_nonneg_right l2 B0) (le_of_eq ?_)
      rw [abs_mul]; ring
    obtain ⟨P, hP⟩ : ∃ P, P = |B * L| := ⟨_, rfl⟩
    obtain ⟨β, hβ⟩ : ∃ β, β = |B| := ⟨_, rfl⟩
    rw [← hP] at e0 P0 hab ⊢
    rw [← hβ] at e0 B0 hb1 ⊢
    have e0' : (30 * β + 3 * P) / 2 ^ 24 ≤ 12 / 100 := by
      rw [div_le_iff₀ (by norm_num)]; norm_num at hb1 ⊢; linarith
    have s0 : |real (logf a) * B| ≤ P + (30 * β + 3 * P) / 2 ^ 24 := by
      have : real (logf a) * B = (real (logf a) * B - B * L) + B * L := by ring
      rw [this]; refine le_trans (abs_add_le _ _) ?_; rw [← hP]; linarith
    obtain ⟨m1, m2⟩ := mul_err l1 hb (by rw [← hB]; refine le_trans s0 ?_; norm_num at e0' ⊢; linarith)
    rw [← hB] at m2
    generalize fmul (logf a) b = w at *
    have e1 : |real w - B * L| ≤ (31 * β + 5 * P + 1) / 2 ^ 24 := by
      have : real w - B * L = (real w - real (logf a) * B) + (real (logf a) * B - B * L) := by ring
      rw [this]
      refine le_trans (abs_add_le _ _) ?_
      have : |real (logf a) * B| / 2 ^ 24 ≤ (P + (30 * β + 3 * P) / 2 ^ 24) / 2 ^ 24 := div_le_div_of_nonneg_right s0 (by norm_num)
      have m3 := m2
      generalize |real w - real (logf a) * B| = z1 at *
      generalize |real (logf a) * B - B * L| = z2 at *
      generalize |real (logf a) * B| / 2 ^ 24 = z3 at *
      norm_num at m3 e0 this ⊢
      linarith
    have e1' : (31 * β + 5 * P + 1) / 2 ^ 24 ≤ 1218 / 10000 := by
      rw [div_le_iff₀ (by norm_num)]; norm_num at hb1 ⊢; linarith
    have aw : |real w| ≤ P + 1218 / 10000 := by
      have : real w = (real w - B * L) + B * L := by ring
      rw [this]; refine le_trans (abs_add_le _ _) ?_; rw [← hP]; linarith
    obtain ⟨x1, x2⟩ := C85_exp_partial m1 (by linarith)
    refine ⟨x1, ?_⟩
    rw [hp]
    obtain ⟨δ, hδ⟩ : ∃ δ, δ = real w - B * L := ⟨_, rfl⟩
    rw [← hδ] at e1
    have ew : Real.exp (real w) = Real.exp (B * L) * Real.exp δ := by rw [← Real.exp_add]; congr 1; linarith
    have d1 : |δ| ≤ 1218 / 10000 := le_trans e1 e1'
    have ed : |Real.exp δ - 1| ≤ 1122 / 1000 * |δ| := by
      have h1 := Real.abs_exp_sub_one_sub_id_le (x := δ) (by linarith)
      have e : Real.exp δ - 1 = (Real.exp δ - 1 - δ) + δ := by ring
      rw [e]
      refine le_trans (abs_add_le _ _) ?_
      have : δ ^ 2 ≤ 1218 / 10000 * |δ| := by rw [← sq_abs, pow_two]; exact mul_le_mul_of_nonneg_right d1 (abs_nonneg δ)
      linarith [abs_nonneg δ]
    have ed2 : Real.exp δ ≤ 114 / 100 := by have := (abs_le.1 ed).2; linarith
    obtain ⟨G, hG⟩ : ∃ G, G = Real.exp (B * L) := ⟨_, rfl⟩
    have G0 : 0 < G := by rw [hG]; exact Real.exp_pos _
    rw [ew, ← hG] at x2
    rw [← hG]
    have e2 : |G * Real.exp δ - G| ≤ 1122 / 1000 * ((31 * β + 5 * P + 1) / 2 ^ 24) * G := by
      have : G * Real.exp δ - G = G * (Real.exp δ - 1) := by ring
      rw [this, abs_mul, abs_of_pos G0, mul_comm]
      apply mul_le_mul_of_nonneg_right _ G0.le
      linarith
    have e3 : (13 + 45 * |real w|) / 2 ^ 24 * (G * Real.exp δ) ≤ (13 + 45 * (P + 1218 / 10000)) / 2 ^ 24 * (114 / 100) * G := by
      calc _ ≤ (13 + 45 * (P + 1218 / 10000)) / 2 ^ 24 * (G * (114 / 100)) := by gcongr
        _ = _ := by ring
    have : real (expf w) - G = (real (expf w) - G * Real.exp δ) + (G * Real.exp δ - G) := by ring
    rw [this]
    refine le_trans (abs_add_le _ _) ?_
    refine le_trans (add_le_add (le_trans x2 e3) e2) ?_
    rw [← add_mul]
    apply mul_le_mul_of_nonneg_right _ G0.le
    norm_num
    linarith

theorem real_four : FinNum 0x40800000 ∧ real 0x40800000 = 4 := by
  refine ⟨by decide, ?_⟩
  unfold real; rw [show f32val 0x40800000 = 4 * 2 ^ 149 by decide +kernel]; push_cast; norm_num

/-- 4 ** 0.5 meets the hypotheses: the answer is 2 but for 170 * 2^-24. -/
example : ∃ u, numBinary powf .pow 0x40800000 0x3f000000 = .ok u ∧ |real u - 2| ≤ 170 / 2 ^ 24 := by
  have l4 : Real.log 4 = 2 * Real.log 2 := by rw [show (4 : ℝ) = 2 ^ 2 by norm_num, Real.log_pow]; norm_num
  have llo := Real.log_two_gt_d9
  have lhi := Real.log_two_lt_d9
  have hp : (1 / 2 : ℝ) * Real.log 4 = Real.log 2 := by rw [l4]; ring
  have ha : |Real.log 2| ≤ 7 / 10 := by rw [abs_le]; constructor <;> linarith
  obtain ⟨u, h1, h2, h3⟩ := C85_pow_partial (a := 0x40800000) (b := 0x3f000000) real_four.1 (by rw [real_four.2]; norm_num) real_half.1
    (by rw [real_half.2]; norm_num [abs_le]) (by rw [real_half.2, real_four.2, hp]; linarith)
  refine ⟨u, h1, ?_⟩
  rw [real_half.2, real_four.2, hp, show (4 : ℝ) ^ (1 / 2 : ℝ) = 2 by
    rw [show (4 : ℝ) = 2 ^ (2 : ℝ) by norm_num, ← Real.rpow_mul (by norm_num)]; norm_num] at h3
  refine le_trans h3 ?_
  rw [abs_of_pos (by norm_num : (0 : ℝ) < 1 / 2)]
  have : (25 + 36 * (1 / 2) + 60 * |Real.log 2|) / 2 ^ 24 * 2 = (86 + 120 * |Real.log 2|) / 2 ^ 24 := by ring
  rw [this]
  apply div_le_div_of_nonneg_right _ (by norm_num)
  linarith

/-- (-1.5) ** 3. -/
example : |real (ipow 0xbfc00000 3) + 27 / 8| ≤ 11 / 2 ^ 24 := by
  have e : FinNum 0xbfc00000 ∧ real 0xbfc00000 = -(3 / 2) := by
    refine ⟨by decide, ?_⟩
    unfold real; rw [show f32val 0xbfc00000 = -3 * 2 ^ 148 by decide +kernel]; push_cast; norm_num
  obtain ⟨h1, h2⟩ := C85_ipow e.1 (by rw [e.2]; norm_num) (x := 3) (by decide) (by rw [e.2]; norm_num [abs_of_neg]) (by rw [e.2]; norm_num [abs_of_neg])
  rw [e.2] at h2
  have e3 : (-(3 / 2) : ℝ) ^ 3 = -(27 / 8) := by norm_num
  have e4 : |(-(3 / 2) : ℝ)| ^ 3 = 27 / 8 := by rw [abs_neg, abs_of_pos (by norm_num)]; norm_num
  rw [e3, e4, sub_neg_eq_add] at h2
  refine le_trans h2 ?_
  norm_num

/-- The logarithm of 4 and e to the 4th. -/
example : |real (logf 0x40800000) - Real.log 4| ≤ (30 + 3 * |Real.log 4|) / 2 ^ 24 ∧ |real (expf 0x40800000) - Real.exp 4| ≤ 193 / 2 ^ 24 * Real.exp 4 := by
  constructor
  · have := (C85_log real_four.1 (by rw [real_four.2]; norm_num)).2
    rwa [real_four.2] at this
  · have := (C85_exp_partial real_four.1 (by rw [real_four.2]; norm_num [abs_lt])).2
    rw [real_four.2] at this
    norm_num at this ⊢
    exact this

/-- 10 ** 30.5, which is about 3.2 * 10^30 and far below the largest number, is infinity: `expf` gives up at 64. -/
theorem C85_violated_large : numBinary powf .pow (intToF 10) 0x41f40000 = .ok 0x7f800000 := by decide +kernel

/-- 0 ** 0.5 is 0.058 and not 0, and 0 ** -1 is 296.8: `logf` of zero is a number. -/
theorem C85_violated_zero : numBinary powf .pow 0 0x3f000000 = .ok 0x3d6dbe5e ∧ numBinary powf .pow 0 (intToF (-1)) = .ok 0x439469bf := by decide +kernel

/-- (-2) ** -1 is infinity, not -0.5. -/
theorem C85_violated_negative : numBinary powf .pow (intToF (-2)) (intToF (-1)) = .ok 0x7f800000 := by decide +kernel

/-- (-1) ** 257 is 0, not -1. -/
theorem C85_violated_odd : numBinary powf .pow (intToF (-1)) (intToF 257) = .ok 0 := by decide +kernel

/-- (-8) ** 0.5 is 0, though no real number is the answer. -/
theorem C85_violated_root : numBinary powf .pow (intToF (-8)) 0x3f000000 = .ok 0 := by decide +kernel

/-- 2 ** -1 is 0.50000006 and 4 ** 0.5 is 1.9999999, though the answers are numbers the machine has. -/
theorem C85_violated_exact : numBinary powf .pow (intToF 2) (intToF (-1)) = .ok 0x3f000001 ∧ numBinary powf .pow (intToF 4) 0x3f000000 = .ok 0x3fffffff := by decide +kernel

end Snek.Pow
