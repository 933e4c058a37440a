import Verif.Proofs.RealErr
import Verif.Model.Pow
import Mathlib.Analysis.SpecialFunctions.Exp
import Mathlib.Analysis.SpecialFunctions.Log.Basic
import Mathlib.Analysis.SpecialFunctions.Pow.Real
import Mathlib.Analysis.Complex.ExponentialBounds
/-! # Errors of `expf` and `logf` -/
namespace Snek.Pow
open Snek Spec

/-- `w` is `x` but for `ε`. -/
structure Near (w : BitVec 32) (x ε : ℝ) : Prop where
  fin : FinNum w
  err : |real w - x| ≤ ε

theorem Near.nonneg {w : BitVec 32} {x ε : ℝ} (h : Near w x ε) : 0 ≤ ε := le_trans (abs_nonneg _) h.err

theorem Near.abs_le {w : BitVec 32} {x ε M : ℝ} (h : Near w x ε) (hM : |x| ≤ M) : |real w| ≤ M + ε := by
  have h1 := h.err
  have : real w = x + (real w - x) := by ring
  rw [this]
  exact le_trans (abs_add_le _ _) (by linarith)

theorem Near.mono {w : BitVec 32} {x ε ε' : ℝ} (h : Near w x ε) (hε : ε ≤ ε') : Near w x ε' := ⟨h.fin, le_trans h.err hε⟩

theorem Near.exact {w : BitVec 32} {x : ℝ} (h : FinNum w) (e : real w = x) : Near w x 0 := ⟨h, by rw [e]; simp⟩

theorem Near.add {a b : BitVec 32} {x y ε δ M : ℝ} (ha : Near a x ε) (hb : Near b y δ) (hM : |x + y| ≤ M) (hB : M + (ε + δ) ≤ 2 ^ 127) :
    Near (fadd a b) (x + y) ((ε + δ) * (1 + 1 / 2 ^ 24) + M / 2 ^ 24 + 1 / 2 ^ 150) := by
  have h1 := ha.err
  have h2 := hb.err
  have hd : |real a + real b - (x + y)| ≤ ε + δ := by
    have : real a + real b - (x + y) = (real a - x) + (real b - y) := by ring
    rw [this]; exact le_trans (abs_add_le _ _) (by linarith)
  have hab : |real a + real b| ≤ M + (ε + δ) := by
    have : real a + real b = (x + y) + (real a + real b - (x + y)) := by ring
    rw [this]; exact le_trans (abs_add_le _ _) (by linarith)
  obtain ⟨f, e⟩ := add_err ha.fin hb.fin (le_trans hab hB)
  refine ⟨f, ?_⟩
  have : real (fadd a b) - (x + y) = (real (fadd a b) - (real a + real b)) + (real a + real b - (x + y)) := by ring
  rw [this]
  refine le_trans (abs_add_le _ _) ?_
  have : |real a + real b| / 2 ^ 24 ≤ (M + (ε + δ)) / 2 ^ 24 := by gcongr
  linarith

theorem Near.neg {a : BitVec 32} {x ε : ℝ} (ha : Near a x ε) : Near (fneg1 a) (-x) ε := by
  obtain ⟨f, e⟩ := real_neg ha.fin
  refine ⟨f, ?_⟩
  rw [e, show -real a - -x = -(real a - x) by ring, abs_neg]
  exact ha.err

theorem Near.sub {a b : BitVec 32} {x y ε δ M : ℝ} (ha : Near a x ε) (hb : Near b y δ) (hM : |x - y| ≤ M) (hB : M + (ε + δ) ≤ 2 ^ 127) :
    Near (fsub a b) (x - y) ((ε + δ) * (1 + 1 / 2 ^ 24) + M / 2 ^ 24 + 1 / 2 ^ 150) := by
  rw [sub_eq_add_neg] at hM ⊢
  exact ha.add hb.neg hM hB

theorem Near.mul {a b : BitVec 32} {x y ε δ M N : ℝ} (ha : Near a x ε) (hM : |x| ≤ M) (hb : Near b y δ) (hN : |y| ≤ N) (hB : (M + ε) * (N + δ) ≤ 2 ^ 127) :
    Near (fmul a b) (x * y) ((ε * N + M * δ + ε * δ) * (1 + 1 / 2 ^ 24) + M * N / 2 ^ 24 + 1 / 2 ^ 150) := by
  have h1 := ha.err
  have h2 := hb.err
  have e0 := ha.nonneg
  have d0 := hb.nonneg
  have M0 : 0 ≤ M := le_trans (abs_nonneg _) hM
  have N0 : 0 ≤ N := le_trans (abs_nonneg _) hN
  have hd : |real a * real b - x * y| ≤ ε * N + M * δ + ε * δ := by
    have : real a * real b - x * y = (real a - x) * y + x * (real b - y) + (real a - x) * (real b - y) := by ring
    rw [this]
    refine le_trans (abs_add_le _ _) (add_le_add (le_trans (abs_add_le _ _) (add_le_add ?_ ?_)) ?_)
    · rw [abs_mul]; exact mul_le_mul h1 hN (abs_nonneg _) e0
    · rw [abs_mul]; exact mul_le_mul hM h2 (abs_nonneg _) M0
    · rw [abs_mul]; exact mul_le_mul h1 h2 (abs_nonneg _) e0
  have hab : |real a * real b| ≤ M * N + (ε * N + M * δ + ε * δ) := by
    have : real a * real b = x * y + (real a * real b - x * y) := by ring
    rw [this]
    refine le_trans (abs_add_le _ _) (add_le_add ?_ hd)
    rw [abs_mul]; exact mul_le_mul hM hN (abs_nonneg _) M0
  obtain ⟨f, e⟩ := mul_err ha.fin hb.fin (le_trans hab (le_trans (by linarith [mul_nonneg e0 d0]) hB))
  refine ⟨f, ?_⟩
  have : real (fmul a b) - x * y = (real (fmul a b) - real a * real b) + (real a * real b - x * y) := by ring
  rw [this]
  refine le_trans (abs_add_le _ _) ?_
  have : |real a * real b| / 2 ^ 24 ≤ (M * N + (ε * N + M * δ + ε * δ)) / 2 ^ 24 := by gcongr
  linarith

/-- The state of the loop: the term is `T ≤ M` but for `ε`, the sum `S ≤ P` but for `δ`. -/
structure Loop (s : BitVec 32 × BitVec 32) (T S ε δ M P : ℝ) : Prop where
  t : Near s.1 T ε
  s : Near s.2 S δ
  t0 : 0 ≤ T
  tM : T ≤ M
  s0 : 0 ≤ S
  sP : S ≤ P

theorem Loop.step {s : BitVec 32 × BitVec 32} {T S ε δ M P : ℝ} (h : Loop s T S ε δ M P) {a : BitVec 32} {A : ℝ} (ha : FinNum a) (hA : real a = A)
    (h0 : 0 ≤ A) (h1 : A ≤ 1 / 2) {k : Nat} (hk : 1 ≤ k) (hk8 : k ≤ 8) {ε' δ' M' P' : ℝ}
    (hM' : M * (1 / 2 / k) = M') (hP' : P + M' = P')
    (hε : (ε * (1 / 2 / k) + M * (1 / 2 / k / 2 ^ 24 + 1 / 2 ^ 150) + ε * (1 / 2 / k / 2 ^ 24 + 1 / 2 ^ 150)) * (1 + 1 / 2 ^ 24) + M * (1 / 2 / k) / 2 ^ 24 + 1 / 2 ^ 150 ≤ ε')
    (hδ : (δ + ε') * (1 + 1 / 2 ^ 24) + P' / 2 ^ 24 + 1 / 2 ^ 150 ≤ δ') (hb : ε' ≤ 1) (hb' : δ' ≤ 1) (hbM : M ≤ 1) (hbP : P' ≤ 1) :
    Loop (term a k s) (T * (A / k)) (S + T * (A / k)) ε' δ' M' P' := by
  have hk0 : (0 : ℝ) < k := by exact_mod_cast hk
  have hk1 : (1 : ℝ) ≤ k := by exact_mod_cast hk
  obtain ⟨kf, kr⟩ := real_int (i := (k : Int)) (by unfold Int24; omega)
  have kr : real (intToF (k : Int)) = (k : ℝ) := by rw [kr]; simp
  have q0 : 0 ≤ A / k := div_nonneg h0 hk0.le
  have q1 : A / k ≤ 1 / 2 / k := by gcongr
  have q2 : 1 / 2 / (k : ℝ) ≤ 1 / 2 := div_le_self (by norm_num) hk1
  have ed := div_err ha kf (by rw [kr]; exact hk0.ne') (by
    rw [hA, kr, abs_of_nonneg q0]
    exact le_trans (le_trans q1 q2) (by norm_num))
  rw [hA, kr, abs_of_nonneg q0] at ed
  have nq : Near (fdiv a (intToF k)) (A / k) (1 / 2 / k / 2 ^ 24 + 1 / 2 ^ 150) :=
    ⟨ed.1, le_trans ed.2 (by gcongr)⟩
  have ε0 := h.t.nonneg
  have δ0 := h.s.nonneg
  have M0 : 0 ≤ M := le_trans h.t0 h.tM
  have εb : ε * (1 / 2 / k) ≤ 1 := by
    have z : 0 ≤ 1 / 2 / (k : ℝ) := by positivity
    have : 0 ≤ (M * (1 / 2 / k / 2 ^ 24 + 1 / 2 ^ 150) + ε * (1 / 2 / k / 2 ^ 24 + 1 / 2 ^ 150)) := by positivity
    have : 0 ≤ ε * (1 / 2 / k) := by positivity
    have : 0 ≤ M * (1 / 2 / k) / 2 ^ 24 := by positivity
    nlinarith
  have εb' : ε ≤ 16 := by
    have : (k : ℝ) ≤ 8 := by exact_mod_cast hk8
    have : 1 / 16 ≤ 1 / 2 / (k : ℝ) := by
      rw [div_div, div_le_div_iff₀ (by norm_num) (by positivity)]; linarith
    nlinarith
  have nt := h.t.mul (M := M) (by rw [abs_of_nonneg h.t0]; exact h.tM) nq (N := 1 / 2 / k) (by rw [abs_of_nonneg q0]; exact q1) (by
    have : (1 / 2 / (k : ℝ) + (1 / 2 / k / 2 ^ 24 + 1 / 2 ^ 150)) ≤ 1 := by
      have : 1 / 2 / (k : ℝ) / 2 ^ 24 ≤ 1 / 2 / 2 ^ 24 := by gcongr
      have : (1 / 2 / 2 ^ 24 : ℝ) + 1 / 2 ^ 150 ≤ 1 / 4 := by norm_num
      linarith
    have z : 0 ≤ (1 / 2 / (k : ℝ) + (1 / 2 / k / 2 ^ 24 + 1 / 2 ^ 150)) := by positivity
    calc (M + ε) * (1 / 2 / (k : ℝ) + (1 / 2 / k / 2 ^ 24 + 1 / 2 ^ 150)) ≤ 17 * 1 := by
          apply mul_le_mul _ this z (by norm_num); linarith
      _ ≤ _ := by norm_num)
  have nt' := nt.mono hε
  have t0' : 0 ≤ T * (A / k) := mul_nonneg h.t0 q0
  have tM' : T * (A / k) ≤ M' := by rw [← hM']; exact mul_le_mul h.tM q1 q0 M0
  have sP' : S + T * (A / k) ≤ P' := by rw [← hP']; exact add_le_add h.sP tM'
  have s0' : 0 ≤ S + T * (A / k) := add_nonneg h.s0 t0'
  have P0 : 0 ≤ P' := le_trans s0' sP'
  have δb : δ ≤ 1 := by
    have := nt'.nonneg
    have : 0 ≤ P' / 2 ^ 24 := by positivity
    have : (0:ℝ) ≤ 1 / 2 ^ 150 := by positivity
    nlinarith
  have ns := h.s.add nt' (M := P') (by rw [abs_of_nonneg s0']; exact sP') (by
    have : P' + (δ + ε') ≤ 3 := by linarith
    exact le_trans this (by norm_num))
  exact ⟨nt', ns.mono hδ, t0', tM', s0', sP'⟩

/-- The sum of the eight terms. -/
theorem terms_near {a : BitVec 32} {A : ℝ} (ha : FinNum a) (hA : real a = A) (h0 : 0 ≤ A) (h1 : A ≤ 1 / 2) :
    Near (terms a 8).2 (A + A ^ 2 / 2 + A ^ 3 / 6 + A ^ 4 / 24 + A ^ 5 / 120 + A ^ 6 / 720 + A ^ 7 / 5040 + A ^ 8 / 40320) (6673 / 1000 / 2 ^ 24) := by
  have one := real_int (i := 1) (by unfold Int24; omega)
  have z : Loop (terms a 0) 1 0 0 0 1 0 :=
    ⟨Near.exact (w := intToF 1) one.1 (by rw [one.2]; simp), Near.exact (w := 0) (by decide) (by unfold real; rw [show f32val 0 = 0 by decide +kernel]; simp), by norm_num, le_refl _, le_refl _, le_refl _⟩
  have s1 := z.step ha hA h0 h1 (k := 1) (by norm_num) (by norm_num) (ε' := 1001 / 1000 / 2 ^ 24) (δ' := 1502 / 1000 / 2 ^ 24) rfl rfl (by norm_num) (by norm_num) (by norm_num) (by norm_num) (by norm_num) (by norm_num)
  have s2 := s1.step ha hA h0 h1 (k := 2) (by norm_num) (by norm_num) (ε' := 501 / 1000 / 2 ^ 24) (δ' := 2629 / 1000 / 2 ^ 24) rfl rfl (by norm_num) (by norm_num) (by norm_num) (by norm_num) (by norm_num) (by norm_num)
  have s3 := s2.step ha hA h0 h1 (k := 3) (by norm_num) (by norm_num) (ε' := 126 / 1000 / 2 ^ 24) (δ' := 3401 / 1000 / 2 ^ 24) rfl rfl (by norm_num) (by norm_num) (by norm_num) (by norm_num) (by norm_num) (by norm_num)
  have s4 := s3.step ha hA h0 h1 (k := 4) (by norm_num) (by norm_num) (ε' := 21 / 1000 / 2 ^ 24) (δ' := 4071 / 1000 / 2 ^ 24) rfl rfl (by norm_num) (by norm_num) (by norm_num) (by norm_num) (by norm_num) (by norm_num)
  have s5 := s4.step ha hA h0 h1 (k := 5) (by norm_num) (by norm_num) (ε' := 3 / 1000 / 2 ^ 24) (δ' := 4723 / 1000 / 2 ^ 24) rfl rfl (by norm_num) (by norm_num) (by norm_num) (by norm_num) (by norm_num) (by norm_num)
  have s6 := s5.step ha hA h0 h1 (k := 6) (by norm_num) (by norm_num) (ε' := 1 / 1000 / 2 ^ 24) (δ' := 5373 / 1000 / 2 ^ 24) rfl rfl (by norm_num) (by norm_num) (by norm_num) (by norm_num) (by norm_num) (by norm_num)
  have s7 := s6.step ha hA h0 h1 (k := 7) (by norm_num) (by norm_num) (ε' := 1 / 1000 / 2 ^ 24) (δ' := 6023 / 1000 / 2 ^ 24) rfl rfl (by norm_num) (by norm_num) (by norm_num) (by norm_num) (by norm_num) (by norm_num)
  have s8 := s7.step ha hA h0 h1 (k := 8) (by norm_num) (by norm_num) (ε' := 1 / 1000 / 2 ^ 24) (δ' := 6673 / 1000 / 2 ^ 24) rfl rfl (by norm_num) (by norm_num) (by norm_num) (by norm_num) (by norm_num) (by norm_num)
  have e : Near (terms a 8).2 _ _ := s8.s
  refine ⟨e.fin, le_trans (le_of_eq ?_) e.err⟩
  congr 1
  push_cast
  ring

/-- The series is `exp` but for nine roundings. -/
theorem sum_near {a : BitVec 32} {A : ℝ} (ha : FinNum a) (hA : real a = A) (h0 : 0 ≤ A) (h1 : A ≤ 1 / 2) :
    Near (fadd (terms a 8).2 (intToF 1)) (Real.exp A) (9 / 2 ^ 24) := by
  have one := real_int (i := 1) (by unfold Int24; omega)
  have n1 : Near (intToF 1) 1 0 := Near.exact one.1 (by rw [one.2]; simp)
  have t := terms_near ha hA h0 h1
  have eb := Real.exp_bound (x := A) (by rw [abs_of_nonneg h0]; linarith) (n := 9) (by norm_num)
  simp only [Finset.sum_range_succ, Finset.sum_range_zero, Nat.factorial] at eb
  norm_num at eb
  set Q := A + A ^ 2 / 2 + A ^ 3 / 6 + A ^ 4 / 24 + A ^ 5 / 120 + A ^ 6 / 720 + A ^ 7 / 5040 + A ^ 8 / 40320 with hQ
  have A9 : |A| ^ 9 ≤ (1 / 2) ^ 9 := by rw [abs_of_nonneg h0]; gcongr
  have hp : ∀ n, A ^ n ≤ (1 / 2) ^ n := fun n => by gcongr
  have Q0 : 0 ≤ Q := by positivity
  have Q1 : Q ≤ 65 / 100 := by
    have := hp 2; have := hp 3; have := hp 4; have := hp 5; have := hp 6; have := hp 7; have := hp 8
    rw [hQ]; norm_num at *; linarith
  have s := t.add n1 (M := 165 / 100) (by rw [abs_of_nonneg (by linarith)]; linarith) (by norm_num)
  refine ⟨s.fin, ?_⟩
  have e := s.err
  have : real (fadd (terms a 8).2 (intToF 1)) - Real.exp A = (real (fadd (terms a 8).2 (intToF 1)) - (Q + 1)) + (Q + 1 - Real.exp A) := by ring
  rw [this]
  refine le_trans (abs_add_le _ _) ?_
  have e2 : |Q + 1 - Real.exp A| ≤ (1 / 2) ^ 9 * (1 / 326592) := by
    rw [abs_sub_comm]
    have e3 : Real.exp A - (Q + 1) = Real.exp A - (1 + A + A ^ 2 / 2 + A ^ 3 / 6 + A ^ 4 / 24 + A ^ 5 / 120 + A ^ 6 / 720 + A ^ 7 / 5040 + A ^ 8 / 40320) := by rw [hQ]; ring
    rw [e3]
    exact le_trans eb (by gcongr)
  norm_num at e e2 ⊢
  linarith

end Snek.Pow
