import Verif.Proofs.Pow
/-! # Relative errors: squaring, products, quotients; `frexpf` -/
namespace Snek.Pow
open Snek Spec

/-- A rounding of 2^-24, with room for what is lost at the lower end. -/
noncomputable def v : ℝ := 1001 / 1000 / 2 ^ 24

theorem v_pos : 0 < v := by unfold v; norm_num
theorem v_lt : v < 1 := by unfold v; norm_num

/-- `w` is the positive `x` but for `k` relative errors. -/
structure Rel (w : BitVec 32) (x : ℝ) (k : Nat) : Prop where
  fin : FinNum w
  pos : 0 < x
  lo : x * (1 - v) ^ k ≤ real w
  hi : real w ≤ x * (1 + v) ^ k

theorem low_half {k : Nat} (hk : k ≤ 2 ^ 20) : 1 / 2 ≤ (1 - v) ^ k := by
  have h := one_add_mul_le_pow (a := -v) (by linarith [v_lt]) k
  have : (k : ℝ) ≤ 2 ^ 20 := by exact_mod_cast hk
  have : (k : ℝ) * v ≤ 2 ^ 20 * v := mul_le_mul_of_nonneg_right this v_pos.le
  have : (2 : ℝ) ^ 20 * v ≤ 1 / 2 := by unfold v; norm_num
  have e : 1 - v = 1 + -v := by ring
  rw [e]; linarith

theorem high_two {k : Nat} (hk : k ≤ 2 ^ 20) : (1 + v) ^ k ≤ 2 := by
  have h1 : (1 + v) ^ k * (1 - v) ^ k ≤ 1 := by
    rw [← mul_pow]
    apply pow_le_one₀ <;> nlinarith [v_pos, v_lt]
  have h2 := low_half hk
  have h3 : 0 < (1 + v) ^ k := pow_pos (by linarith [v_pos]) k
  nlinarith

theorem Rel.real_pos {w : BitVec 32} {x : ℝ} {k : Nat} (h : Rel w x k) : 0 < real w :=
  lt_of_lt_of_le (mul_pos h.pos (pow_pos (by linarith [v_lt]) k)) h.lo

theorem Rel.mul {a b : BitVec 32} {x y : ℝ} {j k : Nat} (ha : Rel a x j) (hb : Rel b y k) (hjk : j + k ≤ 2 ^ 20) (hlo : 1 / 2 ^ 100 ≤ x * y) (hhi : x * y ≤ 2 ^ 120) :
    Rel (fmul a b) (x * y) (j + k + 1) := by
  have ra := ha.real_pos
  have rb := hb.real_pos
  have rab := mul_pos ra rb
  have xy := mul_pos ha.pos hb.pos
  have p1 : 0 ≤ (1 - v) := by linarith [v_lt]
  have p2 : 0 ≤ (1 + v) := by linarith [v_pos]
  have lo : x * y * (1 - v) ^ (j + k) ≤ real a * real b := by
    calc x * y * (1 - v) ^ (j + k) = (x * (1 - v) ^ j) * (y * (1 - v) ^ k) := by rw [pow_add]; ring
      _ ≤ _ := mul_le_mul ha.lo hb.lo (mul_nonneg hb.pos.le (pow_nonneg p1 k)) ra.le
  have hi : real a * real b ≤ x * y * (1 + v) ^ (j + k) := by
    calc real a * real b ≤ (x * (1 + v) ^ j) * (y * (1 + v) ^ k) := mul_le_mul ha.hi hb.hi rb.le (mul_nonneg ha.pos.le (pow_nonneg p2 j))
      _ = _ := by rw [pow_add]; ring
  have l2 : 1 / 2 ^ 101 ≤ real a * real b := by
    have := low_half hjk
    have h : 1 / 2 ^ 100 * (1 / 2) ≤ x * y * (1 - v) ^ (j + k) := mul_le_mul hlo this (by norm_num) xy.le
    have : (1 / 2 ^ 101 : ℝ) = 1 / 2 ^ 100 * (1 / 2) := by norm_num
    linarith
  have u2 : real a * real b ≤ 2 ^ 127 := by
    have := high_two hjk
    have h : x * y * (1 + v) ^ (j + k) ≤ 2 ^ 120 * 2 := mul_le_mul hhi this (pow_nonneg p2 _) (by norm_num)
    have : (2 ^ 120 * 2 : ℝ) ≤ 2 ^ 127 := by norm_num
    linarith
  obtain ⟨f, e⟩ := mul_err ha.fin hb.fin (by rw [abs_of_pos rab]; exact u2)
  rw [abs_of_pos rab] at e
  have small : (1 / 2 ^ 150 : ℝ) ≤ real a * real b * (v - 1 / 2 ^ 24) := by
    have : (1 / 2 ^ 150 : ℝ) ≤ 1 / 2 ^ 101 * (v - 1 / 2 ^ 24) := by unfold v; norm_num
    have h : 1 / 2 ^ 101 * (v - 1 / 2 ^ 24) ≤ real a * real b * (v - 1 / 2 ^ 24) := mul_le_mul_of_nonneg_right l2 (by unfold v; norm_num)
    linarith
  have e' : |real (fmul a b) - real a * real b| ≤ real a * real b * v := by linarith
  obtain ⟨e1, e2⟩ := abs_le.1 e'
  refine ⟨f, xy, ?_, ?_⟩
  · have : x * y * (1 - v) ^ (j + k) * (1 - v) ≤ real a * real b * (1 - v) := mul_le_mul_of_nonneg_right lo p1
    rw [pow_succ, ← mul_assoc]; linarith
  · have : real a * real b * (1 + v) ≤ x * y * (1 + v) ^ (j + k) * (1 + v) := mul_le_mul_of_nonneg_right hi p2
    rw [pow_succ, ← mul_assoc]; linarith

theorem inv_pow_le {k : Nat} (hk : k ≤ 2 ^ 20) : 1 / (1 - v) ^ k ≤ (1 + v) ^ (k + 1) := by
  have p1 : 0 < (1 - v) := by linarith [v_lt]
  rw [div_le_iff₀ (pow_pos p1 k)]
  have e : (1 + v) ^ (k + 1) * (1 - v) ^ k = (1 - v ^ 2) ^ k * (1 + v) := by
    rw [pow_succ, mul_right_comm, ← mul_pow]; ring
  rw [e]
  have h := one_add_mul_le_pow (a := -v ^ 2) (by nlinarith [v_lt, v_pos]) k
  have hk' : (k : ℝ) ≤ 2 ^ 20 := by exact_mod_cast hk
  have hv : (2 : ℝ) ^ 20 * v ≤ 1 / 2 := by unfold v; norm_num
  have h2 : 1 - v / 2 ≤ (1 - v ^ 2) ^ k := by
    have : (k : ℝ) * v ^ 2 ≤ v / 2 := by nlinarith [v_pos]
    have e : 1 - v ^ 2 = 1 + -v ^ 2 := by ring
    rw [e]; linarith
  have h3 := mul_le_mul_of_nonneg_right h2 (by linarith [v_pos] : 0 ≤ 1 + v)
  have : v ≤ 1 / 2 := by unfold v; norm_num
  nlinarith [v_pos]

theorem Rel.inv {b : BitVec 32} {x : ℝ} {k : Nat} (hb : Rel b x k) (hk : k ≤ 2 ^ 20) (hlo : 1 / 2 ^ 100 ≤ x) (hhi : x ≤ 2 ^ 100) :
    Rel (fdiv (intToF 1) b) (1 / x) (k + 2) := by
  have one := real_int (i := 1) (by unfold Int24; omega)
  have r1 : real (intToF 1) = 1 := by rw [one.2]; simp
  have rb := hb.real_pos
  have p1 : 0 < (1 - v) := by linarith [v_lt]
  have p2 : 0 < (1 + v) := by linarith [v_pos]
  have q1 := pow_pos p1 k
  have q2 := pow_pos p2 k
  have hx := hb.pos
  have hi : 1 / real b ≤ 1 / x * (1 + v) ^ (k + 1) := by
    calc 1 / real b ≤ 1 / (x * (1 - v) ^ k) := one_div_le_one_div_of_le (mul_pos hx q1) hb.lo
      _ = 1 / x * (1 / (1 - v) ^ k) := by field_simp
      _ ≤ _ := mul_le_mul_of_nonneg_left (inv_pow_le hk) (by positivity)
  have lo : 1 / x * (1 - v) ^ (k + 1) ≤ 1 / real b := by
    have h1 : (1 - v) ^ k * (1 + v) ^ k ≤ 1 := by
      rw [← mul_pow]; apply pow_le_one₀ <;> nlinarith [v_pos, v_lt]
    have h2 : (1 - v) ^ (k + 1) ≤ 1 / (1 + v) ^ k := by
      rw [le_div_iff₀ q2, pow_succ]
      nlinarith [v_pos, mul_pos q1 q2]
    calc 1 / x * (1 - v) ^ (k + 1) ≤ 1 / x * (1 / (1 + v) ^ k) := mul_le_mul_of_nonneg_left h2 (by positivity)
      _ = 1 / (x * (1 + v) ^ k) := by field_simp
      _ ≤ _ := one_div_le_one_div_of_le rb hb.hi
  have r0 : 0 < 1 / real b := by positivity
  have l2 : 1 / 2 ^ 101 ≤ 1 / real b := by
    apply one_div_le_one_div_of_le rb
    have := high_two hk
    calc real b ≤ x * (1 + v) ^ k := hb.hi
      _ ≤ 2 ^ 100 * 2 := mul_le_mul hhi this q2.le (by norm_num)
      _ = _ := by norm_num
  have u2 : 1 / real b ≤ 2 ^ 127 := by
    have := low_half hk
    have : 1 / 2 ^ 100 * (1 / 2) ≤ real b := le_trans (mul_le_mul hlo this (by norm_num) hx.le) hb.lo
    rw [div_le_iff₀ rb]
    have : (1 : ℝ) ≤ 2 ^ 127 * (1 / 2 ^ 100 * (1 / 2)) := by norm_num
    nlinarith
  obtain ⟨f, e⟩ := div_err one.1 hb.fin rb.ne' (by rw [r1, abs_of_pos r0]; exact u2)
  rw [r1, abs_of_pos r0] at e
  have small : (1 / 2 ^ 150 : ℝ) ≤ 1 / real b * (v - 1 / 2 ^ 24) := by
    have : (1 / 2 ^ 150 : ℝ) ≤ 1 / 2 ^ 101 * (v - 1 / 2 ^ 24) := by unfold v; norm_num
    have h : 1 / 2 ^ 101 * (v - 1 / 2 ^ 24) ≤ 1 / real b * (v - 1 / 2 ^ 24) := mul_le_mul_of_nonneg_right l2 (by unfold v; norm_num)
    linarith
  have e' : |real (fdiv (intToF 1) b) - 1 / real b| ≤ 1 / real b * v := by linarith
  obtain ⟨e1, e2⟩ := abs_le.1 e'
  refine ⟨f, by positivity, ?_, ?_⟩
  · have : 1 / x * (1 - v) ^ (k + 1) * (1 - v) ≤ 1 / real b * (1 - v) := mul_le_mul_of_nonneg_right lo p1.le
    rw [pow_succ, ← mul_assoc]; linarith
  · have : 1 / real b * (1 + v) ≤ 1 / x * (1 + v) ^ (k + 1) * (1 + v) := mul_le_mul_of_nonneg_right hi p2.le
    rw [pow_succ, ← mul_assoc]; linarith

theorem Rel.of_near {w : BitVec 32} {x : ℝ} (h : Near w x (9 / 2 ^ 24)) (hx : 1 ≤ x) : Rel w x 10 := by
  obtain ⟨e1, e2⟩ := abs_le.1 h.err
  have x0 : 0 ≤ x := by linarith
  refine ⟨h.fin, by linarith, ?_, ?_⟩
  · have : (1 - v) ^ 10 ≤ 1 - 9 / 2 ^ 24 := by unfold v; norm_num
    have := mul_le_mul_of_nonneg_left this x0
    have : 9 / 2 ^ 24 * 1 ≤ 9 / 2 ^ 24 * x := mul_le_mul_of_nonneg_left hx (by norm_num)
    nlinarith
  · have : 1 + 9 / 2 ^ 24 ≤ (1 + v) ^ 10 := by unfold v; norm_num
    have := mul_le_mul_of_nonneg_left this x0
    have : 9 / 2 ^ 24 * 1 ≤ 9 / 2 ^ 24 * x := mul_le_mul_of_nonneg_left hx (by norm_num)
    nlinarith

theorem Rel.squares : ∀ (e : Nat) {w : BitVec 32} {x : ℝ} {k : Nat}, Rel w x k → 1 ≤ x → x ^ 2 ^ e ≤ 2 ^ 100 → (k + 1) * 2 ^ e ≤ 2 ^ 20 →
    Rel (squares e w) (x ^ 2 ^ e) ((k + 1) * 2 ^ e - 1)
  | 0, w, x, k, h, _, _, _ => by simpa [Pow.squares] using h
  | e + 1, w, x, k, h, h1, h2, h3 => by
    have xx : x ^ 2 ^ (e + 1) = (x * x) ^ 2 ^ e := by rw [pow_succ 2, mul_comm (2 ^ e) 2, pow_mul, pow_two]
    have one : 1 ≤ x * x := by nlinarith
    have hk : 2 * (k + 1) * 2 ^ e ≤ 2 ^ 20 := by rw [pow_succ] at h3; linarith
    have hkk : 2 * (k + 1) ≤ 2 ^ 20 := le_trans (Nat.le_mul_of_pos_right _ (by positivity)) hk
    have le : x * x ≤ 2 ^ 120 := by
      have : x * x ≤ (x * x) ^ 2 ^ e := le_self_pow₀ one (by positivity)
      rw [xx] at h2
      exact le_trans (le_trans this h2) (by norm_num)
    have s := h.mul h (by omega) (le_trans (by norm_num) one) le
    have := Rel.squares e (x := x * x) s one (by rw [← xx]; exact h2) (by rw [show k + k + 1 + 1 = 2 * (k + 1) by ring]; exact hk)
    rw [xx]
    rw [show k + k + 1 + 1 = 2 * (k + 1) by ring] at this
    rw [show (k + 1) * 2 ^ (e + 1) = 2 * (k + 1) * 2 ^ e by rw [pow_succ]; ring]
    exact this

/-- In terms of a bound. -/
theorem Rel.err {w : BitVec 32} {x : ℝ} {k : Nat} (h : Rel w x k) (hk : k ≤ 2 ^ 20) : |real w - x| ≤ 2 * k * v * x := by
  have hx := h.pos
  have hkv : (k : ℝ) * v ≤ 1 / 2 := by
    have : (k : ℝ) ≤ 2 ^ 20 := by exact_mod_cast hk
    have : (k : ℝ) * v ≤ 2 ^ 20 * v := mul_le_mul_of_nonneg_right this v_pos.le
    have : (2 : ℝ) ^ 20 * v ≤ 1 / 2 := by unfold v; norm_num
    linarith
  have kv0 : 0 ≤ (k : ℝ) * v := mul_nonneg (by positivity) v_pos.le
  have l : 1 - k * v ≤ (1 - v) ^ k := by
    have h := one_add_mul_le_pow (a := -v) (by linarith [v_lt]) k
    have e : 1 - v = 1 + -v := by ring
    rw [e]; linarith
  have u : (1 + v) ^ k ≤ 1 + 2 * k * v := by
    have h1 : (1 + v) ^ k * (1 - v) ^ k ≤ 1 := by
      rw [← mul_pow]; apply pow_le_one₀ <;> nlinarith [v_pos, v_lt]
    have h3 : 0 < (1 + v) ^ k := pow_pos (by linarith [v_pos]) k
    have h4 : (1 + v) ^ k * (1 - k * v) ≤ 1 := le_trans (mul_le_mul_of_nonneg_left l h3.le) h1
    nlinarith
  rw [abs_le]
  constructor
  · have := le_trans (mul_le_mul_of_nonneg_left l hx.le) h.lo
    nlinarith [mul_nonneg kv0 hx.le]
  · have := le_trans h.hi (mul_le_mul_of_nonneg_left u hx.le)
    nlinarith

/-! ## frexpf -/

theorem f32mag_eq (m : Nat) : f32mag m = fmag m := rfl

theorem real_pos_nat {a : BitVec 32} (h : 0 < real a) : a.toNat < 2 ^ 31 ∧ real a = (fmag a.toNat : ℝ) / 2 ^ 149 ∧ 0 < fmag a.toNat := by
  by_cases hl : a.toNat < 2 ^ 31
  · have e : real a = (fmag a.toNat : ℝ) / 2 ^ 149 := by
      unfold real f32val; rw [if_pos hl, f32mag_eq]; push_cast; rfl
    refine ⟨hl, e, ?_⟩
    rcases Nat.eq_zero_or_pos (fmag a.toNat) with hz | hz
    · rw [e, hz] at h; simp at h
    · exact hz
  · exfalso
    unfold real f32val at h
    rw [if_neg hl] at h
    push_cast at h
    have : -(f32mag (a.toNat - 2 ^ 31) : ℝ) / 2 ^ 149 ≤ 0 := by
      apply div_nonpos_of_nonpos_of_nonneg <;> [skip; positivity]
      simp
    linarith

theorem fmk_pos (m : Nat) (hm : m < 2 ^ 31) : (fmk false m).toNat = m := by
  unfold fmk; simp; omega

theorem real_fmk (E f : Nat) (hE : 0 < E) (hE2 : E < 255) (hf : f < 2 ^ 23) :
    FinNum (fmk false (E * 2 ^ 23 + f)) ∧ real (fmk false (E * 2 ^ 23 + f)) = (2 ^ 23 + f : ℝ) * 2 ^ (E - 1) / 2 ^ 149 ∧
    f32val (fmk false (E * 2 ^ 23 + f)) = ((2 ^ 23 + f) * 2 ^ (E - 1) : Nat) := by
  have t := fmk_pos (E * 2 ^ 23 + f) (by omega)
  have v : f32val (fmk false (E * 2 ^ 23 + f)) = ((2 ^ 23 + f) * 2 ^ (E - 1) : Nat) := by
    unfold f32val
    rw [t, if_pos (by omega)]
    unfold f32mag
    rw [if_neg (by omega), show (E * 2 ^ 23 + f) % 2 ^ 23 = f by omega, show (E * 2 ^ 23 + f) / 2 ^ 23 = E by omega]
  refine ⟨?_, ?_, v⟩
  · unfold FinNum; rw [t]; omega
  · unfold real; rw [v]; push_cast; norm_num

/-- The fraction as a number of 24 bits; the exponent as a power. -/
theorem frexp_spec {a : BitVec 32} (ha : FinNum a) (h : 0 < real a) : ∃ f, f < 2 ^ 23 ∧ (frexp a).1 = fmk false (126 * 2 ^ 23 + f) ∧
    real a = (2 ^ 23 + f : ℝ) / 2 ^ 24 * (2 : ℝ) ^ (frexp a).2 ∧ -148 ≤ (frexp a).2 ∧ (frexp a).2 ≤ 128 := by
  obtain ⟨h1, h2, h3⟩ := real_pos_nat h
  have hm : a.toNat % 2 ^ 31 = a.toNat := Nat.mod_eq_of_lt h1
  have hn : fneg a = false := decide_eq_false (by omega)
  unfold FinNum at ha
  unfold frexp
  simp only [hm, hn] at *
  have h0 : a.toNat ≠ 0 := by intro e; rw [e] at h3; revert h3; decide
  rw [if_neg (by omega)]
  by_cases hs : a.toNat < 2 ^ 23
  · rw [if_pos hs]
    have hfm : fmag a.toNat = a.toNat := by
      unfold fmag; rw [if_pos (by omega), Nat.mod_eq_of_lt hs]
    rw [h2, hfm]
    have hl : a.toNat.log2 < 23 := (Nat.log2_lt h0).2 hs
    have hlo : 2 ^ a.toNat.log2 ≤ a.toNat := Nat.log2_self_le h0
    have hhi : a.toNat < 2 ^ (a.toNat.log2 + 1) := Nat.lt_log2_self
    generalize a.toNat.log2 = L at *
    generalize a.toNat = m at *
    have e1 : 2 ^ 23 = 2 ^ L * 2 ^ (23 - L) := by rw [← Nat.pow_add]; congr 1; omega
    have e2 : 2 ^ (L + 1) * 2 ^ (23 - L) = 2 ^ 24 := by rw [← Nat.pow_add]; congr 1; omega
    have l1 : 2 ^ 23 ≤ m * 2 ^ (23 - L) := by rw [e1]; exact Nat.mul_le_mul_right _ hlo
    have l2 : m * 2 ^ (23 - L) < 2 ^ 24 := by rw [← e2]; exact Nat.mul_lt_mul_of_pos_right hhi (by positivity)
    refine ⟨m * 2 ^ (23 - L) - 2 ^ 23, by omega, rfl, ?_, by omega, by omega⟩
    rw [Nat.cast_sub l1]
    push_cast
    have e3 : (2 : ℝ) ^ (-125 - ((23 - L : Nat) : Int)) = 1 / 2 ^ 125 / 2 ^ (23 - L) := by
      rw [zpow_sub₀ (by norm_num), zpow_natCast, zpow_neg]; norm_num
    rw [e3]
    have : (2 : ℝ) ^ (23 - L) ≠ 0 := by positivity
    field_simp
    ring_nf
  · rw [if_neg hs]
    refine ⟨a.toNat % 2 ^ 23, Nat.mod_lt _ (by norm_num), rfl, ?_, by omega, by omega⟩
    rw [h2]
    unfold fmag
    rw [if_neg (by omega)]
    have hE : 1 ≤ a.toNat / 2 ^ 23 := by omega
    generalize a.toNat / 2 ^ 23 = E at *
    generalize a.toNat % 2 ^ 23 = f at *
    have e3 : (2 : ℝ) ^ ((E : Int) - 126) = 2 ^ (E - 1) / 2 ^ 125 := by
      have : (E : Int) - 126 = ((E - 1 : Nat) : Int) - (125 : Nat) := by omega
      rw [this, zpow_sub₀ (by norm_num), zpow_natCast, zpow_natCast]
    rw [e3]
    push_cast
    field_simp
    ring_nf

/-- Halving is exact. -/
theorem half_exact {f : Nat} (hf : f < 2 ^ 23) : FinNum (fdiv (fmk false (126 * 2 ^ 23 + f)) (intToF 2)) ∧
    real (fdiv (fmk false (126 * 2 ^ 23 + f)) (intToF 2)) = (2 ^ 23 + f : ℝ) / 2 ^ 25 := by
  obtain ⟨m1, m2, m3⟩ := real_fmk 126 f (by norm_num) (by norm_num) hf
  obtain ⟨v1, v2, v3⟩ := real_fmk 125 f (by norm_num) (by norm_num) hf
  obtain ⟨t1, t2⟩ := intToF_denotes (z := 2) (by unfold Int24; omega)
  have hb : fval (intToF 2) ≠ 0 := by rw [← fval_eq_spec, t2]; norm_num
  have R := fdiv_rounded _ _ m1 t1 hb
  have s2 : (f32val (intToF 2)).sign = 1 := Int.sign_eq_one_of_pos (by rw [t2]; norm_num)
  have n2 : (f32val (intToF 2)).natAbs = 2 ^ 150 := by rw [t2]; decide +kernel
  rw [s2, n2, m3, Int.mul_one] at R
  have lt : 2 * (((2 ^ 23 + f) * 2 ^ (126 - 1) : Nat) * 2 ^ 149 : Int).natAbs < ((2 ^ 24 - 1) * 2 ^ 253 + 2 ^ 277) * 2 ^ 150 := by
    have e : (((2 ^ 23 + f) * 2 ^ (126 - 1) : Nat) * 2 ^ 149 : Int) = (((2 ^ 23 + f) * 2 ^ (126 - 1) * 2 ^ 149 : Nat) : Int) := by push_cast; rfl
    rw [e, Int.natAbs_natCast]
    have : (2 ^ 23 + f) * 2 ^ (126 - 1) * 2 ^ 149 ≤ 2 ^ 24 * 2 ^ (126 - 1) * 2 ^ 149 := by
      apply Nat.mul_le_mul_right; apply Nat.mul_le_mul_right; omega
    refine Nat.lt_of_le_of_lt (Nat.mul_le_mul_left 2 this) (by decide +kernel)
  have N := (R.1 lt)
  refine ⟨N.1, ?_⟩
  have z := (N.2 _ v1).1
  have e0 : (f32val (fmk false (125 * 2 ^ 23 + f)) * (2 ^ 150 : Nat) - ((2 ^ 23 + f) * 2 ^ (126 - 1) : Nat) * 2 ^ 149 : Int) = 0 := by
    rw [v3]; push_cast; ring
  rw [e0] at z
  have z' : f32val (fdiv (fmk false (126 * 2 ^ 23 + f)) (intToF 2)) * (2 ^ 150 : Nat) - ((2 ^ 23 + f) * 2 ^ (126 - 1) : Nat) * 2 ^ 149 = 0 :=
    Int.natAbs_eq_zero.1 (Nat.le_zero.1 z)
  have zr : (f32val (fdiv (fmk false (126 * 2 ^ 23 + f)) (intToF 2)) : ℝ) * 2 ^ 150 = (2 ^ 23 + f) * 2 ^ 125 * 2 ^ 149 := by
    have := congrArg (fun x : Int => (x : ℝ)) (Int.sub_eq_zero.1 z')
    push_cast at this
    norm_num at this ⊢
    exact this
  unfold real
  rw [eq_div_iff (by positivity)]
  rw [div_mul_eq_mul_div, div_eq_iff (by positivity)]
  have : (2 : ℝ) ^ 150 = 2 ^ 25 * 2 ^ 125 := by rw [← pow_add]
  rw [this] at zr
  have h125 : (2 : ℝ) ^ 125 ≠ 0 := by positivity
  apply mul_right_cancel₀ h125
  linarith

end Snek.Pow
