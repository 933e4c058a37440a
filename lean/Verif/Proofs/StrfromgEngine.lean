import Verif.Proofs.Strfromg
/-! The eight digits of the AVR boards. -/
namespace Snek.Strfromg
open Snek.Format Spec.Print

theorem pad_front (k D : Nat) : pad (k + 1) D = digit false (D / 10 ^ k % 10) :: pad k D := by
  induction k generalizing D with
  | zero => simp [pad]
  | succ k ih =>
    rw [pad, ih (D / 10), pad, List.cons_append, Nat.div_div_eq_div_mul, Nat.pow_succ, Nat.mul_comm 10]

/-- Only the lower digits count. -/
theorem pad_mod (k D : Nat) : pad k (D % 10 ^ k) = pad k D := by
  induction k generalizing D with
  | zero => rfl
  | succ k ih =>
    have h1 : D % 10 ^ (k + 1) / 10 = D / 10 % 10 ^ k := by
      rw [Nat.pow_succ, Nat.mul_comm, Nat.mod_mul_right_div_self]
    have h2 : D % 10 ^ (k + 1) % 10 = D % 10 := by
      rw [Nat.pow_succ]; exact Nat.mod_mul_left_mod _ _ _
    rw [pad, pad, h1, ih, h2]

/-- `k` digits more. -/
theorem digits_run (e : Int) : ∀ (k p r : Nat) (out : List UInt8), out ≠ [] → out.length + (k + 1) = 8 → k ≤ p → r < 10 ^ (p + 1) →
    digits 8 (p + 1) r e out = some (.inr (r % 10 ^ (p - k), 10 ^ (p - k) / 10, e, out ++ pad (k + 1) (r / 10 ^ (p - k)))) := by
  intro k
  induction k with
  | zero =>
    intro p r out ho hl _ hr
    have hd : r / 10 ^ p < 10 := by
      rw [Nat.div_lt_iff_lt_mul (Nat.pow_pos (by decide)), Nat.mul_comm]; rw [Nat.pow_succ] at hr; exact hr
    rw [digits]
    simp only []
    rw [if_neg (by simp [ho]), if_pos hd, if_neg (by simp; omega)]
    simp [pad, Nat.mod_eq_of_lt hd]
  | succ k ih =>
    intro p r out ho hl hp hr
    obtain ⟨p, rfl⟩ : ∃ p', p = p' + 1 := ⟨p - 1, by omega⟩
    have hd : r / 10 ^ (p + 1) < 10 := by
      rw [Nat.div_lt_iff_lt_mul (Nat.pow_pos (by decide)), Nat.mul_comm]; rw [Nat.pow_succ] at hr; exact hr
    rw [digits]
    simp only []
    rw [if_neg (by simp [ho]), if_pos hd, if_pos (by simp; omega),
      ih p (r % 10 ^ (p + 1)) (out ++ [digit false (r / 10 ^ (p + 1))]) (by simp) (by simp; omega) (by omega) (Nat.mod_lt _ (Nat.pow_pos (by decide)))]
    have e1 : p + 1 - (k + 1) = p - k := by omega
    have e2 : (10 : Nat) ^ (p + 1) = 10 ^ (p - k) * 10 ^ (k + 1) := by rw [← Nat.pow_add]; congr 1; omega
    have e3 : r % 10 ^ (p + 1) % 10 ^ (p - k) = r % 10 ^ (p - k) := by rw [e2]; exact Nat.mod_mul_right_mod _ _ _
    have e4 : r % 10 ^ (p + 1) / 10 ^ (p - k) = r / 10 ^ (p - k) % 10 ^ (k + 1) := by rw [e2]; exact Nat.mod_mul_right_div_self _ _ _
    rw [e1, e3, e4, pad_mod, pad_front (k + 1), Nat.div_div_eq_div_mul, ← e2, Nat.mod_eq_of_lt hd]
    simp

/-- Zeros at the front are skipped. -/
theorem digits_skip : ∀ (j p r : Nat) (e : Int), r < 10 ^ (p + 1) → digits 8 (p + 1 + j) r e [] = digits 8 (p + 1) r (e - j) [] := by
  intro j
  induction j with
  | zero => intro p r e _; simp
  | succ j ih =>
    intro p r e hr
    have hd : r < 10 ^ (p + 1 + j) := Nat.lt_of_lt_of_le hr (Nat.pow_le_pow_right (by decide) (by omega))
    rw [show p + 1 + (j + 1) = (p + 1 + j) + 1 by omega, digits]
    simp only []
    rw [if_pos ⟨trivial, Nat.div_eq_of_lt hd⟩, Nat.mod_eq_of_lt hd, ih p r _ hr]
    congr 1; omega

theorem digits_eq (p r : Nat) (e : Int) (hp : 7 ≤ p) (hp' : p ≤ 14) (h1 : 10 ^ p ≤ r) (h2 : r < 10 ^ (p + 1)) :
    digits 8 15 r e [] = some (.inr (r % 10 ^ (p - 7), 10 ^ (p - 7) / 10, e - (14 - p : Nat), pad 8 (r / 10 ^ (p - 7)))) := by
  rw [show 15 = p + 1 + (14 - p) by omega, digits_skip _ _ _ _ h2]
  obtain ⟨p, rfl⟩ : ∃ p', p = p' + 1 := ⟨p - 1, by omega⟩
  have hd : r / 10 ^ (p + 1) < 10 := by
    rw [Nat.div_lt_iff_lt_mul (Nat.pow_pos (by decide)), Nat.mul_comm]; rw [Nat.pow_succ] at h2; exact h2
  have h0 : r / 10 ^ (p + 1) ≠ 0 := by
    have := Nat.div_pos h1 (Nat.pow_pos (n := p + 1) (show 0 < 10 by decide)); omega
  rw [digits]
  simp only []
  rw [if_neg (by simp [h0]), if_pos hd, if_pos (by simp), digits_run _ 6 p _ _ (by simp) (by simp) (by omega) (Nat.mod_lt _ (Nat.pow_pos (by decide)))]
  have e1 : p + 1 - 7 = p - 6 := by omega
  have e2 : (10 : Nat) ^ (p + 1) = 10 ^ (p - 6) * 10 ^ 7 := by rw [← Nat.pow_add]; congr 1; omega
  have e3 : r % 10 ^ (p + 1) % 10 ^ (p - 6) = r % 10 ^ (p - 6) := by rw [e2]; exact Nat.mod_mul_right_mod _ _ _
  have e4 : r % 10 ^ (p + 1) / 10 ^ (p - 6) = r / 10 ^ (p - 6) % 10 ^ 7 := by rw [e2]; exact Nat.mod_mul_right_div_self _ _ _
  rw [e1, e3, e4, pad_mod 7, pad_front 7, Nat.div_div_eq_div_mul, ← e2, Nat.mod_eq_of_lt hd]
  simp

theorem inc_pad (n D : Nat) (h : D < 10 ^ n) : inc (pad n D).reverse = ((pad n ((D + 1) % 10 ^ n)).reverse, decide (D + 1 < 10 ^ n)) := by
  induction n generalizing D with
  | zero =>
    have : D = 0 := by simpa using h
    subst this; rfl
  | succ n ih =>
    have hD : D / 10 < 10 ^ n := by rw [Nat.div_lt_iff_lt_mul (by decide)]; rw [Nat.pow_succ] at h; exact h
    have key : ∀ d, d < 10 → (digit false d + 1 < 58 ↔ d < 9) ∧ (d < 9 → digit false d + 1 = digit false (d + 1)) := by decide
    obtain ⟨k1, k2⟩ := key (D % 10) (Nat.mod_lt _ (by decide))
    rw [pad, List.reverse_append, List.reverse_singleton, List.singleton_append, inc]
    rw [Nat.pow_succ] at h
    by_cases hc : D % 10 < 9
    · have hlt : D + 1 < 10 ^ n * 10 := by omega
      rw [if_pos (k1.2 hc), k2 hc, Nat.pow_succ, Nat.mod_eq_of_lt hlt, decide_eq_true hlt, pad, List.reverse_append, List.reverse_singleton, List.singleton_append]
      rw [show (D + 1) / 10 = D / 10 by omega, show (D + 1) % 10 = D % 10 + 1 by omega]
    · rw [if_neg (fun h' => hc (k1.1 h')), ih _ hD]
      have e1 : (D + 1) % 10 ^ (n + 1) / 10 = (D / 10 + 1) % 10 ^ n := by
        rw [Nat.pow_succ, Nat.mul_comm, Nat.mod_mul_right_div_self]; congr 1; omega
      have e2 : (D + 1) % 10 ^ (n + 1) % 10 = 0 := by
        rw [Nat.pow_succ, Nat.mod_mul_left_mod]; omega
      have e3 : (D / 10 + 1 < 10 ^ n) ↔ (D + 1 < 10 ^ (n + 1)) := by
        rw [Nat.pow_succ]
        generalize 10 ^ n = Q at *
        omega
      rw [pad, List.reverse_append, List.reverse_singleton, List.singleton_append, e1, e2]
      simp only [e3]
      rfl

theorem roundUp_pad (D : Nat) (x : Int) (h : D < 10 ^ 8) :
    roundUp (pad 8 D) x = if D + 1 < 10 ^ 8 then (pad 8 (D + 1), x) else (pad 8 (10 ^ 7), x + 1) := by
  unfold roundUp
  rw [inc_pad 8 D h]
  simp only [decide_eq_true_eq, List.reverse_reverse]
  split
  · rename_i hc
    rw [Nat.mod_eq_of_lt hc]
  · have : D = 10 ^ 8 - 1 := by omega
    subst this
    rw [show 49 :: List.drop 1 (pad 8 ((10 ^ 8 - 1 + 1) % 10 ^ 8)) = pad 8 (10 ^ 7) by decide]

/-- The table: `f` is 2^(8 i - 135) 10^(14 - e), to within 10^-9. -/
theorem table_ok : ∀ i, i < 32 → ∃ e f, exponentTable.getD i 0 = e ∧ factorTable.getD i 0 = f ∧ -36 ≤ e ∧ e ≤ 39 ∧ 465661287 ≤ f ∧ f ≤ 4235164736 ∧
    1000000000 * (f * 2 ^ 135 * 10 ^ (e + 36).toNat) ≤ 1000000001 * (2 ^ (8 * i) * 10 ^ 50) ∧
    999999999 * (2 ^ (8 * i) * 10 ^ 50) ≤ 1000000000 * (f * 2 ^ 135 * 10 ^ (e + 36).toNat) := by
  intro i hi
  refine ⟨_, _, rfl, rfl, ?_⟩
  revert i
  decide +kernel

/-- What comes out of the digits. -/
def finish (m : Bool) : Option (Sum Int (Nat × Nat × Int × List UInt8)) → Option Engine
  | none => none
  | some (.inl exp10) =>
    let (ds, x) := roundUp (List.replicate 8 57) exp10
    some ⟨m, false, false, ds, x⟩
  | some (.inr (prod, decimal, exp10, ds)) =>
    let decimal := decimal * 10
    if decimal / 2 ≤ prod then
      let (ds, x) := roundUp ds exp10
      some ⟨m, false, false, ds, x⟩
    else some ⟨m, false, false, ds, exp10⟩

/-- The rounded digits. -/
theorem finish_digits (m : Bool) (p r : Nat) (e : Int) (hp : 8 ≤ p) (hp' : p ≤ 14) (h1 : 10 ^ p ≤ r) (h2 : r < 10 ^ (p + 1)) (he : -36 ≤ e) :
    ∃ D x, finish m (digits 8 15 r e []) = some ⟨m, false, false, pad 8 D, x⟩ ∧ 10 ^ 7 ≤ D ∧ D < 10 ^ 8 ∧ e + p - 14 ≤ x ∧ x ≤ e + p - 13 ∧
      ∃ d, d * 10 ^ (e + 36).toNat = D * 10 ^ (x + 43).toNat ∧ 2 * d ≤ 2 * r + 10 ^ (p - 7) ∧ 2 * r ≤ 2 * d + 10 ^ (p - 7) := by
  rw [digits_eq p r e (by omega) hp' h1 h2]
  unfold finish
  simp only []
  obtain ⟨t, rfl⟩ : ∃ t, p = t + 8 := ⟨p - 8, by omega⟩
  have eP : 10 ^ (t + 8 - 7) / 10 * 10 = 10 ^ (t + 8 - 7) := by
    rw [show t + 8 - 7 = t + 1 by omega, Nat.pow_succ]; omega
  have eP2 : 10 ^ (t + 8 - 7) = 2 * (10 ^ (t + 8 - 7) / 2) := by
    rw [show t + 8 - 7 = t + 1 by omega, Nat.pow_succ]; omega
  have e7 : 10 ^ (t + 8) = 10 ^ (t + 8 - 7) * 10 ^ 7 := by rw [← Nat.pow_add]; congr 1
  have e8 : 10 ^ (t + 8 + 1) = 10 ^ (t + 8 - 7) * 10 ^ 8 := by rw [← Nat.pow_add]; congr 1
  have hP : 0 < 10 ^ (t + 8 - 7) := Nat.pow_pos (by decide)
  rw [eP]
  have hd1 : 10 ^ 7 ≤ r / 10 ^ (t + 8 - 7) := by rw [Nat.le_div_iff_mul_le hP, Nat.mul_comm, ← e7]; exact h1
  have hd2 : r / 10 ^ (t + 8 - 7) < 10 ^ 8 := by rw [Nat.div_lt_iff_lt_mul hP, Nat.mul_comm, ← e8]; exact h2
  have hdm := Nat.div_add_mod r (10 ^ (t + 8 - 7))
  have hml := Nat.mod_lt r hP
  have ex : ∀ x : Int, x = e - ((14 - (t + 8) : Nat) : Int) → 10 ^ (t + 8 - 7) * 10 ^ (e + 36).toNat = 10 ^ (x + 43).toNat := by
    intro x hx
    rw [← Nat.pow_add]; congr 1; omega
  have fin : ∀ (D : Nat) (x : Int), x = e - ((14 - (t + 8) : Nat) : Int) → D * 10 ^ (t + 8 - 7) * 10 ^ (e + 36).toNat = D * 10 ^ (x + 43).toNat := by
    intro D x hx
    rw [Nat.mul_assoc, ex x hx]
  clear h1 h2 e7 e8
  split
  · rename_i hc
    rw [roundUp_pad _ _ hd2]
    split
    · rename_i hs
      refine ⟨_, _, rfl, by omega, hs, by omega, by omega, (r / 10 ^ (t + 8 - 7) + 1) * 10 ^ (t + 8 - 7), fin _ _ rfl, ?_⟩
      rw [Nat.add_mul, Nat.one_mul, Nat.mul_comm (r / _)]
      generalize 10 ^ (t + 8 - 7) = P at *
      generalize P * (r / P) = Q at *
      omega
    · rename_i hs
      have hr : r / 10 ^ (t + 8 - 7) = 10 ^ 8 - 1 := by omega
      refine ⟨_, _, rfl, Nat.le_refl _, by decide, by omega, by omega, 10 ^ 8 * 10 ^ (t + 8 - 7), ?_, ?_⟩
      · rw [fin (10 ^ 8) _ rfl, show (e - ((14 - (t + 8) : Nat) : Int) + 1 + 43).toNat = (e - ((14 - (t + 8) : Nat) : Int) + 43).toNat + 1 by omega]
        generalize (e - ((14 - (t + 8) : Nat) : Int) + 43).toNat = y
        rw [show (10 : Nat) ^ 8 = 10 ^ 7 * 10 from rfl, Nat.mul_assoc, Nat.mul_comm 10, ← Nat.pow_succ]
      · rw [hr] at hdm
        generalize 10 ^ (t + 8 - 7) = P at *
        omega
  · rename_i hc
    refine ⟨_, _, rfl, hd1, hd2, by omega, by omega, r / 10 ^ (t + 8 - 7) * 10 ^ (t + 8 - 7), fin _ _ rfl, ?_⟩
    rw [Nat.mul_comm (r / _)]
    generalize 10 ^ (t + 8 - 7) = P at *
    generalize P * (r / P) = Q at *
    omega

theorem near_lin (a b X M d q : Nat) (h1 : a ≤ X) (h2 : X < a + b) (h3 : 1000000000 * X ≤ 1000000001 * M) (h4 : 999999999 * M ≤ 1000000000 * X)
    (h5 : 2 * d ≤ 2 * a + q) (h6 : 2 * a ≤ 2 * d + q) (h7 : a < 100000000 * q) (h9 : 10 * b ≤ q) :
    100 * d ≤ 100 * M + 71 * q ∧ 100 * M ≤ 100 * d + 71 * q := by omega

theorem near_weak {d M q q' : Nat} (h : q ≤ q') (hn : 100 * d ≤ 100 * M + 71 * q ∧ 100 * M ≤ 100 * d + 71 * q) :
    100 * d ≤ 100 * M + 71 * q' ∧ 100 * M ≤ 100 * d + 71 * q' := by omega

theorem near_rel (a b X M d q : Nat) (h1 : a ≤ X) (h2 : X < a + b) (h3 : 1000000000 * X ≤ 1000000001 * M) (h4 : 999999999 * M ≤ 1000000000 * X)
    (h5 : 2 * d ≤ 2 * a + q) (h6 : 2 * a ≤ 2 * d + q) (h8 : 10000000 * q ≤ a) (h9 : 10000 * b ≤ q) :
    19600000 * d ≤ 19600001 * M ∧ 19599999 * M ≤ 19600000 * d := by omega

/-- The product, its table entry and the number. -/
theorem prod_near (frac i r f m : Nat) (e : Int) (hr : r < 8) (hm : 2 * m = frac * 2 ^ (8 * i + r))
    (t1 : 1000000000 * (f * 2 ^ 135 * 10 ^ (e + 36).toNat) ≤ 1000000001 * (2 ^ (8 * i) * 10 ^ 50))
    (t2 : 999999999 * (2 ^ (8 * i) * 10 ^ 50) ≤ 1000000000 * (f * 2 ^ 135 * 10 ^ (e + 36).toNat)) :
    ∃ X, frac * f / 2 ^ (15 - r) * (10 ^ (e + 36).toNat * 2 ^ 149) ≤ X ∧ X < frac * f / 2 ^ (15 - r) * (10 ^ (e + 36).toNat * 2 ^ 149) + 10 ^ (e + 36).toNat * 2 ^ 149 ∧
      1000000000 * X ≤ 1000000001 * (m * 10 ^ 50) ∧ 999999999 * (m * 10 ^ 50) ≤ 1000000000 * X := by
  have hA : 0 < 10 ^ (e + 36).toNat := Nat.pow_pos (by decide)
  generalize 10 ^ (e + 36).toNat = A at *
  generalize 10 ^ 50 = T at *
  refine ⟨frac * f * 2 ^ r * 2 ^ 134 * A, ?_, ?_, ?_, ?_⟩
  · have h := Nat.div_mul_le_self (frac * f) (2 ^ (15 - r))
    have e1 : frac * f / 2 ^ (15 - r) * (A * 2 ^ 149) = frac * f / 2 ^ (15 - r) * 2 ^ (15 - r) * 2 ^ r * 2 ^ 134 * A := by
      have : 2 ^ 149 = 2 ^ (15 - r) * 2 ^ r * 2 ^ 134 := by rw [← Nat.pow_add, ← Nat.pow_add]; congr 1; omega
      rw [this]; ac_rfl
    rw [e1]
    exact Nat.mul_le_mul_right _ (Nat.mul_le_mul_right _ (Nat.mul_le_mul_right _ h))
  · have h : frac * f < (frac * f / 2 ^ (15 - r) + 1) * 2 ^ (15 - r) := by
      rw [Nat.mul_comm (_ + 1)]
      exact Nat.lt_mul_div_succ _ (Nat.pow_pos (by decide))
    have e1 : frac * f / 2 ^ (15 - r) * (A * 2 ^ 149) + A * 2 ^ 149 = (frac * f / 2 ^ (15 - r) + 1) * 2 ^ (15 - r) * 2 ^ r * 2 ^ 134 * A := by
      have : 2 ^ 149 = 2 ^ (15 - r) * 2 ^ r * 2 ^ 134 := by rw [← Nat.pow_add, ← Nat.pow_add]; congr 1; omega
      rw [← Nat.succ_mul, this]
      show (frac * f / 2 ^ (15 - r) + 1) * _ = _
      ac_rfl
    rw [e1]
    exact Nat.mul_lt_mul_of_pos_right (Nat.mul_lt_mul_of_pos_right (Nat.mul_lt_mul_of_pos_right h (Nat.pow_pos (by decide))) (Nat.pow_pos (by decide))) hA
  · have h := Nat.mul_le_mul_right (frac * 2 ^ r) t1
    have e1 : 1000000000 * (f * 2 ^ 135 * A) * (frac * 2 ^ r) = 2 * (1000000000 * (frac * f * 2 ^ r * 2 ^ 134 * A)) := by
      rw [show 2 ^ 135 = 2 * 2 ^ 134 from rfl]; ac_rfl
    have e2 : 1000000001 * (2 ^ (8 * i) * T) * (frac * 2 ^ r) = 2 * (1000000001 * (m * T)) := by
      have : 2 * (1000000001 * (m * T)) = 1000000001 * ((2 * m) * T) := by ac_rfl
      rw [this, hm, Nat.pow_add]; ac_rfl
    rw [e1, e2] at h
    exact Nat.le_of_mul_le_mul_left h (by decide)
  · have h := Nat.mul_le_mul_right (frac * 2 ^ r) t2
    have e1 : 1000000000 * (f * 2 ^ 135 * A) * (frac * 2 ^ r) = 2 * (1000000000 * (frac * f * 2 ^ r * 2 ^ 134 * A)) := by
      rw [show 2 ^ 135 = 2 * 2 ^ 134 from rfl]; ac_rfl
    have e2 : 999999999 * (2 ^ (8 * i) * T) * (frac * 2 ^ r) = 2 * (999999999 * (m * T)) := by
      have : 2 * (999999999 * (m * T)) = 999999999 * ((2 * m) * T) := by ac_rfl
      rw [this, hm, Nat.pow_add]; ac_rfl
    rw [e1, e2] at h
    exact Nat.le_of_mul_le_mul_left h (by decide)

theorem log10_ex (r : Nat) (h : 0 < r) : ∃ p, 10 ^ p ≤ r ∧ r < 10 ^ (p + 1) := ⟨ilog10 r, ilog10_spec r h⟩

theorem scaled (B P D A A' U d r : Nat) (h : d * A = D * A') (hB : B = A * U) (h1 : 2 * d ≤ 2 * r + P) (h2 : 2 * r ≤ 2 * d + P) :
    2 * (D * A' * U) ≤ 2 * (r * B) + P * B ∧ 2 * (r * B) ≤ 2 * (D * A' * U) + P * B := by
  rw [← h, Nat.mul_assoc d, ← hB]
  constructor
  · have := Nat.mul_le_mul_right B h1
    rw [Nat.add_mul, Nat.mul_assoc, Nat.mul_assoc] at this; exact this
  · have := Nat.mul_le_mul_right B h2
    rw [Nat.add_mul, Nat.mul_assoc, Nat.mul_assoc] at this; exact this

/-- The digits are near. -/
theorem engine_core (s : Bool) (frac i r m : Nat) (hi : i < 32) (hr : r < 8) (hm : 2 * m = frac * 2 ^ (8 * i + r))
    (hlo : 10 ^ 8 ≤ frac * factorTable.getD i 0 / 2 ^ (15 - r)) (hfr : frac < 2 ^ 24) :
    ∃ D x, finish s (digits 8 15 (frac * factorTable.getD i 0 / 2 ^ (15 - r)) (exponentTable.getD i 0) []) = some ⟨s, false, false, pad 8 D, x⟩ ∧
      10 ^ 7 ≤ D ∧ D < 10 ^ 8 ∧ -42 ≤ x ∧ x ≤ 41 ∧
      100 * (D * 10 ^ (x + 43).toNat * 2 ^ 149) ≤ 100 * (m * 10 ^ 50) + 71 * (10 ^ (x + 43).toNat * 2 ^ 149) ∧
      100 * (m * 10 ^ 50) ≤ 100 * (D * 10 ^ (x + 43).toNat * 2 ^ 149) + 71 * (10 ^ (x + 43).toNat * 2 ^ 149) ∧
      (2 ^ 23 ≤ frac → 19600000 * (D * 10 ^ (x + 43).toNat * 2 ^ 149) ≤ 19600001 * (m * 10 ^ 50) ∧
        19599999 * (m * 10 ^ 50) ≤ 19600000 * (D * 10 ^ (x + 43).toNat * 2 ^ 149)) := by
  obtain ⟨e, f, he, hf, e1, e2, f1, f2, t1, t2⟩ := table_ok i hi
  rw [hf] at hlo
  rw [he, hf]
  obtain ⟨X, x1, x2, x3, x4⟩ := prod_near frac i r f m e hr hm t1 t2
  have hup : frac * f / 2 ^ (15 - r) < 10 ^ 15 := by
    rw [Nat.div_lt_iff_lt_mul (Nat.pow_pos (by decide))]
    have h1 : frac * f ≤ 2 ^ 24 * 4235164736 := Nat.mul_le_mul (by omega) f2
    have h2 : 2 ^ 8 ≤ 2 ^ (15 - r) := Nat.pow_le_pow_right (by decide) (by omega)
    have h3 : 10 ^ 15 * 2 ^ 8 ≤ 10 ^ 15 * 2 ^ (15 - r) := Nat.mul_le_mul_left _ h2
    exact Nat.lt_of_le_of_lt h1 (Nat.lt_of_lt_of_le (by decide) h3)
  have hnorm : 2 ^ 23 ≤ frac → 10 ^ 11 ≤ frac * f / 2 ^ (15 - r) := by
    intro hn
    rw [Nat.le_div_iff_mul_le (Nat.pow_pos (by decide))]
    have h1 : 2 ^ 23 * 465661287 ≤ frac * f := Nat.mul_le_mul hn f1
    have h2 : 2 ^ (15 - r) ≤ 2 ^ 15 := Nat.pow_le_pow_right (by decide) (by omega)
    exact Nat.le_trans (Nat.mul_le_mul_left _ h2) (Nat.le_trans (by decide) h1)
  generalize frac * f / 2 ^ (15 - r) = R at *
  obtain ⟨p, p1, p2⟩ := log10_ex R (by omega)
  have hp : 8 ≤ p := by
    rcases Nat.lt_or_ge p 8 with h | h
    · have := Nat.pow_le_pow_right (show 0 < 10 by decide) (show p + 1 ≤ 8 by omega)
      omega
    · exact h
  have hp' : p ≤ 14 := by
    rcases Nat.lt_or_ge 14 p with h | h
    · have := Nat.pow_le_pow_right (show 0 < 10 by decide) (show 15 ≤ p by omega)
      omega
    · exact h
  obtain ⟨D, x, g1, g2, g3, g4, g5, d, g6, g7, g8⟩ := finish_digits s p R e hp hp' p1 p2 e1
  refine ⟨D, x, g1, g2, g3, by omega, by omega, ?_⟩
  obtain ⟨s1, s2⟩ := scaled (10 ^ (e + 36).toNat * 2 ^ 149) (10 ^ (p - 7)) D _ _ (2 ^ 149) d R g6 rfl g7 g8
  have hq : 10 ^ (p - 7) * (10 ^ (e + 36).toNat * 2 ^ 149) ≤ 10 ^ (x + 43).toNat * 2 ^ 149 := by
    rw [← Nat.mul_assoc, ← Nat.pow_add]
    exact Nat.mul_le_mul_right _ (Nat.pow_le_pow_right (by decide) (by omega))
  have q10 : 10 * (10 ^ (e + 36).toNat * 2 ^ 149) ≤ 10 ^ (p - 7) * (10 ^ (e + 36).toNat * 2 ^ 149) :=
    Nat.mul_le_mul_right _ (Nat.pow_le_pow_right (n := 10) (i := 1) (by decide) (by omega))
  have hlt : R * (10 ^ (e + 36).toNat * 2 ^ 149) < 100000000 * (10 ^ (p - 7) * (10 ^ (e + 36).toNat * 2 ^ 149)) := by
    rw [← Nat.mul_assoc 100000000]
    refine Nat.mul_lt_mul_of_pos_right ?_ (Nat.mul_pos (Nat.pow_pos (by decide)) (Nat.pow_pos (by decide)))
    have : 10 ^ (p + 1) = 100000000 * 10 ^ (p - 7) := by
      rw [show (100000000 : Nat) = 10 ^ 8 from rfl, ← Nat.pow_add]; congr 1; omega
    rw [← this]; exact p2
  have hle : 10000000 * (10 ^ (p - 7) * (10 ^ (e + 36).toNat * 2 ^ 149)) ≤ R * (10 ^ (e + 36).toNat * 2 ^ 149) := by
    rw [← Nat.mul_assoc 10000000]
    refine Nat.mul_le_mul_right _ ?_
    have : 10 ^ p = 10000000 * 10 ^ (p - 7) := by
      rw [show (10000000 : Nat) = 10 ^ 7 from rfl, ← Nat.pow_add]; congr 1; omega
    rw [← this]; exact p1
  have hn4 : 2 ^ 23 ≤ frac → 10000 * (10 ^ (e + 36).toNat * 2 ^ 149) ≤ 10 ^ (p - 7) * (10 ^ (e + 36).toNat * 2 ^ 149) := by
    intro hn
    have hR := hnorm hn
    have : 11 ≤ p := by
      rcases Nat.lt_or_ge p 11 with h | h
      · have := Nat.pow_le_pow_right (show 0 < 10 by decide) (show p + 1 ≤ 11 by omega)
        omega
      · exact h
    exact Nat.mul_le_mul_right _ (Nat.pow_le_pow_right (n := 10) (i := 4) (by decide) (by omega))
  obtain ⟨n1, n2⟩ := near_weak hq (near_lin _ _ _ _ _ _ x1 x2 x3 x4 s1 s2 hlt q10)
  exact ⟨n1, n2, fun hn => near_rel _ _ _ _ _ _ x1 x2 x3 x4 s1 s2 hle (hn4 hn)⟩

theorem engine_eq (u : BitVec 32) (hf : isFin u = true) (hz : fmag (u.toNat % 2 ^ 31) ≠ 0) : ∃ frac i r, i < 32 ∧ r < 8 ∧ frac < 2 ^ 24 ∧
    2 * fmag (u.toNat % 2 ^ 31) = frac * 2 ^ (8 * i + r) ∧ (2 ^ 23 ≤ frac ∨ (i = 0 ∧ r = 1 ∧ frac = fmag (u.toNat % 2 ^ 31))) ∧
    engine u = finish (fneg u) (digits 8 15 (frac * factorTable.getD i 0 / 2 ^ (15 - r)) (exponentTable.getD i 0) []) := by
  have hu := u.isLt
  have hfin : u.toNat % 2 ^ 31 < 0x7f800000 := by unfold isFin at hf; exact of_decide_eq_true hf
  have e1 : u.toNat / 2 ^ 23 % 256 = u.toNat % 2 ^ 31 / 2 ^ 23 := by omega
  have e2 : u.toNat % 2 ^ 23 = u.toNat % 2 ^ 31 % 2 ^ 23 := by omega
  have hx : u.toNat % 2 ^ 31 / 2 ^ 23 < 255 := by omega
  have hfr : u.toNat % 2 ^ 31 % 2 ^ 23 < 2 ^ 23 := Nat.mod_lt _ (by decide)
  have unf : ∀ X F : Nat, u.toNat % 2 ^ 31 / 2 ^ 23 = X → u.toNat % 2 ^ 31 % 2 ^ 23 = F → ¬ (X = 0 ∧ F = 0) → X < 255 →
      engine u = finish (fneg u) (digits 8 15 ((if X = 0 then F else F + 2 ^ 23) * factorTable.getD ((if X = 0 then 1 else X) / 8) 0 / 2 ^ (15 - (if X = 0 then 1 else X) % 8))
        (exponentTable.getD ((if X = 0 then 1 else X) / 8) 0) []) := by
    intro X F h1 h2 h3 h4
    unfold engine
    simp only []
    rw [e1, e2, h1, h2, if_neg h3, if_neg (show ¬ X = 255 by omega)]
    unfold finish fneg
    rfl
  unfold fmag at hz ⊢
  generalize u.toNat % 2 ^ 31 / 2 ^ 23 = X at *
  generalize u.toNat % 2 ^ 31 % 2 ^ 23 = F at *
  by_cases hX : X = 0
  · rw [if_pos hX] at hz
    have := unf X F rfl rfl (fun h => hz h.2) hx
    rw [if_pos hX, if_pos hX] at this
    rw [if_pos hX]
    exact ⟨F, 0, 1, by decide, by decide, by omega, by simp [Nat.mul_comm], .inr ⟨rfl, rfl, rfl⟩, this⟩
  · have := unf X F rfl rfl (fun h => hX h.1) hx
    rw [if_neg hX, if_neg hX] at this
    rw [if_neg hX]
    refine ⟨F + 2 ^ 23, X / 8, X % 8, by omega, by omega, by omega, ?_, .inl (by omega), this⟩
    rw [Nat.div_add_mod]
    obtain ⟨Y, rfl⟩ : ∃ Y, X = Y + 1 := ⟨X - 1, by omega⟩
    rw [Nat.add_sub_cancel, Nat.add_comm F]
    generalize 2 ^ 23 + F = G
    rw [Nat.pow_succ]
    ac_rfl

/-- The digits of every number of 714 units on. -/
theorem engine_near (u : BitVec 32) (hf : isFin u = true) (h : 714 ≤ fmag (u.toNat % 2 ^ 31)) :
    ∃ D x, engine u = some ⟨fneg u, false, false, pad 8 D, x⟩ ∧
      10 ^ 7 ≤ D ∧ D < 10 ^ 8 ∧ -42 ≤ x ∧ x ≤ 41 ∧
      100 * (D * 10 ^ (x + 43).toNat * 2 ^ 149) ≤ 100 * (fmag (u.toNat % 2 ^ 31) * 10 ^ 50) + 71 * (10 ^ (x + 43).toNat * 2 ^ 149) ∧
      100 * (fmag (u.toNat % 2 ^ 31) * 10 ^ 50) ≤ 100 * (D * 10 ^ (x + 43).toNat * 2 ^ 149) + 71 * (10 ^ (x + 43).toNat * 2 ^ 149) ∧
      (2 ^ 23 ≤ fmag (u.toNat % 2 ^ 31) → 19600000 * (D * 10 ^ (x + 43).toNat * 2 ^ 149) ≤ 19600001 * (fmag (u.toNat % 2 ^ 31) * 10 ^ 50) ∧
        19599999 * (fmag (u.toNat % 2 ^ 31) * 10 ^ 50) ≤ 19600000 * (D * 10 ^ (x + 43).toNat * 2 ^ 149)) := by
  obtain ⟨frac, i, r, h1, h2, h3, h4, h5, h6⟩ := engine_eq u hf (by omega)
  have hlo : 10 ^ 8 ≤ frac * factorTable.getD i 0 / 2 ^ (15 - r) := by
    rw [Nat.le_div_iff_mul_le (Nat.pow_pos (by decide))]
    rcases h5 with hn | ⟨rfl, rfl, rfl⟩
    · obtain ⟨e, f, _, hf', _, _, f1, _⟩ := table_ok i h1
      rw [hf']
      have a1 : 2 ^ 23 * 465661287 ≤ frac * f := Nat.mul_le_mul hn f1
      have a2 : 2 ^ (15 - r) ≤ 2 ^ 15 := Nat.pow_le_pow_right (by decide) (by omega)
      exact Nat.le_trans (Nat.mul_le_mul_left _ a2) (Nat.le_trans (by decide) a1)
    · exact Nat.le_trans (show 10 ^ 8 * 2 ^ (15 - 1) ≤ 714 * factorTable.getD 0 0 by decide) (Nat.mul_le_mul_right _ h)
  obtain ⟨D, x, a1, a2, a3, a4, a5, a6, a7, a8⟩ := engine_core (fneg u) frac i r _ h1 h2 h4 hlo h3
  refine ⟨D, x, h6.trans a1, a2, a3, a4, a5, a6, a7, fun hn => a8 ?_⟩
  rcases h5 with h5 | ⟨_, _, rfl⟩
  · exact h5
  · exact hn

end Snek.Strfromg
