import Verif.Model.Random
import Verif.Proofs.Round
/-!
# C49: random numbers

`outputs` lists what a sequence of calls returns. `Denotes u i`: the number `u` is the integer `i`. `f32val u` is the value of a number in
units of 2^-149, so `0 ≤ f32val u ∧ f32val u < 2 ^ 149` says that it is in [0, 1).
-/
namespace Snek.Random
open Spec

/-- The results of a sequence of calls. -/
def outputs {σ : Type} (call : Call → σ → Option NumR × σ) : List Call → σ → List (Option NumR)
  | [], _ => []
  | c :: cs, s => (call c s).1 :: outputs call cs (call c s).2

/-- Reproducible: after `seed(a)` the results depend on `a` and the calls only, not on what happened before. -/
theorem C49_reproducible (a : BitVec 32) (cs : List Call) (s t : St) : outputs call (.seed a :: cs) s = outputs call (.seed a :: cs) t := rfl

theorem C49_small_reproducible (a : BitVec 32) (cs : List Call) (s t : BitVec 32) :
    outputs Small.call (.seed a :: cs) s = outputs Small.call (.seed a :: cs) t := rfl

/-! ## randrange -/

theorem fToU32_int {a : BitVec 32} {n : Int} (h : Denotes a n) (h0 : 0 ≤ n) (h1 : n < 2 ^ 32) : fToU32 a = some n.toNat := by
  have ht : ftrunc a = n := by
    unfold ftrunc
    rw [h.val]
    exact Int.mul_tdiv_cancel _ (Int.ne_of_gt pow149_pos)
  unfold fToU32
  rw [ht]
  exact if_pos ⟨h.fin, h0, h1⟩

/-- `randrange(n)` for a positive integer up to 2^24 is an integer in 0..n-1. (Missing: larger `n`, where the result is rounded, see
`C49_violated_randrange`.) -/
theorem C49_randrange_partial (a : BitVec 32) (n : Int) (h : Denotes a n) (h0 : 0 < n) (h1 : n ≤ 2 ^ 24) (s : St) :
    ∃ u k, (randrange a s).1 = .ok u ∧ Denotes u k ∧ 0 ≤ k ∧ k < n := by
  unfold randrange
  rw [fToU32_int h (by omega) (by omega)]
  obtain ⟨m, rfl⟩ := Int.eq_ofNat_of_zero_le (show 0 ≤ n by omega)
  rw [Int.toNat_natCast]
  obtain ⟨m, rfl⟩ : ∃ j, m = j + 1 := ⟨m - 1, by omega⟩
  have hlt := Nat.mod_lt (next s).x.toNat (show 0 < m + 1 by omega)
  have hd : Denotes (intToF ((next s).x.toNat % (m + 1) : Nat)) ((next s).x.toNat % (m + 1) : Nat) := intToF_denotes (by constructor <;> omega)
  exact ⟨_, _, rfl, by show Denotes (floatToPoly (intToF ((next s).x.toNat % (m + 1) : Nat))) _; rw [hd.toPoly]; exact hd, by omega, by omega⟩

/-- `randrange(0)` is an error; the generator does not advance. -/
theorem C49_randrange_zero (a : BitVec 32) (h : Denotes a 0) (s : St) : randrange a s = (.error, s) := by
  unfold randrange
  rw [fToU32_int h (by omega) (by omega)]
  rfl

theorem C49_small_randrange_partial (a : BitVec 32) (n : Int) (h : Denotes a n) (h0 : 0 < n) (h1 : n ≤ 2 ^ 24) (s : BitVec 32) :
    ∃ u k, (Small.randrange a s).1 = .ok u ∧ Denotes u k ∧ 0 ≤ k ∧ k < n := by
  unfold Small.randrange
  rw [fToU32_int h (by omega) (by omega)]
  obtain ⟨m, rfl⟩ := Int.eq_ofNat_of_zero_le (show 0 ≤ n by omega)
  rw [Int.toNat_natCast]
  obtain ⟨m, rfl⟩ : ∃ j, m = j + 1 := ⟨m - 1, by omega⟩
  have hlt := Nat.mod_lt (Small.next s).toNat (show 0 < m + 1 by omega)
  have hd : Denotes (intToF ((Small.next s).toNat % (m + 1) : Nat)) ((Small.next s).toNat % (m + 1) : Nat) := intToF_denotes (by constructor <;> omega)
  exact ⟨_, _, rfl, by show Denotes (floatToPoly (intToF ((Small.next s).toNat % (m + 1) : Nat))) _; rw [hd.toPoly]; exact hd, by omega, by omega⟩

/-- Violated: the small generator divides by zero for `randrange(0)`. -/
theorem C49_violated_small_zero (a : BitVec 32) (h : Denotes a 0) (s : BitVec 32) : (Small.randrange a s).1 = .undefined := by
  unfold Small.randrange
  rw [fToU32_int h (by omega) (by omega)]
  rfl

/-- Violated: after seed(137472) the 17th `randrange(2**25)` is 2**25. -/
theorem C49_violated_randrange :
    Denotes (intToF (2 ^ 25)) (2 ^ 25) ∧
    (outputs call (.seed (intToF 137472) :: List.replicate 17 (.randrange (intToF (2 ^ 25)))) ⟨0, 0⟩).getLast? = some (some (.ok (intToF (2 ^ 25)))) := by
  refine ⟨⟨by decide +kernel, by decide +kernel⟩, by decide +kernel⟩

/-! ## random -/

theorem scaled_rounded (n k : Nat) : Rounded (scaled n k) (n * 2 ^ 149) (2 ^ k) := by
  have hp : 0 < 2 ^ k := Nat.pow_pos (by decide)
  unfold scaled
  split
  · rename_i h; subst h
    have := rounded_zero false (2 ^ k) hp
    simpa [fmk] using this
  · have := rounded_fmk false (n * 2 ^ 149) (2 ^ k) hp (.inr rfl)
    rw [if_neg (by decide), Int.natCast_mul, Int.natCast_pow] at this
    exact this

set_option exponentiation.threshold 300 in
theorem scaled_nearest (n k : Nat) (h : n < 2 ^ 32) : Nearest (scaled n k) (n * 2 ^ 149) (2 ^ k) := by
  refine (scaled_rounded n k).1 ?_
  rw [natAbs_scale, Int.natAbs_natCast]
  have h1 : n * 2 ^ 149 < 2 ^ 32 * 2 ^ 149 := Nat.mul_lt_mul_of_pos_right h (Nat.pow_pos (by decide))
  have h2 : 2 * (2 ^ 32 * 2 ^ 149) ≤ (2 ^ 24 - 1) * 2 ^ 253 + 2 ^ 277 := by decide +kernel
  have h3 : (2 ^ 24 - 1) * 2 ^ 253 + 2 ^ 277 ≤ ((2 ^ 24 - 1) * 2 ^ 253 + 2 ^ 277) * 2 ^ k := Nat.le_mul_of_pos_right _ (Nat.pow_pos (by decide))
  have h4 : 2 * (n * 2 ^ 149) < 2 * (2 ^ 32 * 2 ^ 149) := Nat.mul_lt_mul_of_pos_left h1 (by decide)
  exact Nat.lt_of_lt_of_le h4 (Nat.le_trans h2 h3)

theorem scaled_stored (n k : Nat) (h : n < 2 ^ 32) : floatToPoly (scaled n k) = scaled n k := by
  have := (scaled_nearest n k h).1
  unfold floatToPoly isNanF
  rw [if_neg]
  intro hx
  have := of_decide_eq_true hx
  omega

/-- The values around one. -/
theorem f32_one : f32val 0x3f800000#32 = 2 ^ 24 * 2 ^ 125 ∧ f32val 0x3f7fffff#32 = (2 ^ 24 - 1) * 2 ^ 125 ∧ f32val 0 = 0 := by decide +kernel

theorem pow149 : (2 : Int) ^ 149 = 2 ^ 24 * 2 ^ 125 := by decide

/-- The quotients that round to one. -/
theorem scaled_top : ∀ i : Fin 128, scaled (0xffffff80 + i.val) 32 = 0x3f800000#32 := by decide +kernel

/-- `n / 2^32`, rounded. -/
theorem scaled_range (n : Nat) (hn : n < 2 ^ 32) :
    0 ≤ f32val (scaled n 32) ∧ f32val (scaled n 32) ≤ 2 ^ 149 ∧ (f32val (scaled n 32) < 2 ^ 149 ↔ n < 0xffffff80) := by
  obtain ⟨e1, e2, e3⟩ := f32_one
  by_cases ht : 0xffffff80 ≤ n
  · have := scaled_top ⟨n - 0xffffff80, by omega⟩
    rw [show 0xffffff80 + (n - 0xffffff80) = n by omega] at this
    rw [this, e1, pow149]
    have hw : (0 : Int) < 2 ^ 125 := by decide
    generalize (2 : Int) ^ 125 = W at *
    refine ⟨by omega, by omega, by constructor <;> intros <;> omega⟩
  · obtain ⟨h1, h2⟩ := scaled_nearest n 32 hn
    have a0 := (h2 0 (by decide)).1
    have a2 := (h2 0x3f7fffff#32 (by decide)).1
    rw [e3] at a0
    rw [e2] at a2
    rw [pow149] at *
    have hw : (0 : Int) < 2 ^ 125 := by decide
    generalize f32val (scaled n 32) = V at *
    generalize (2 : Int) ^ 125 = W at *
    have hp : ((2 ^ 32 : Nat) : Int) = 2 ^ 32 := rfl
    rw [hp] at a0 a2
    have hb : (n : Int) * W ≤ 0xffffff7f * W := Int.mul_le_mul_of_nonneg_right (by omega) (by omega)
    have hb0 : 0 ≤ (n : Int) * W := Int.mul_nonneg (by omega) (by omega)
    have e : (n : Int) * (2 ^ 24 * W) = 2 ^ 24 * (n * W) := by ac_rfl
    rw [e] at a0 a2
    generalize (n : Int) * W = X at *
    refine ⟨by omega, by omega, by constructor <;> intros <;> omega⟩

/-- `random()` is at least 0 and at most 1. It is below 1 exactly if the low half of the generator's word is below 0xffffff80. (Missing:
it should always be below 1, see `C49_violated_random`.) -/
theorem C49_random_partial (s : St) : ∃ u, (random s).1 = .ok u ∧ 0 ≤ f32val u ∧ f32val u ≤ 2 ^ 149 ∧
    (f32val u < 2 ^ 149 ↔ (next s).x.toNat % 2 ^ 32 < 0xffffff80) := by
  have hn : (next s).x.toNat % 2 ^ 32 < 2 ^ 32 := Nat.mod_lt _ (by decide)
  refine ⟨scaled ((next s).x.toNat % 2 ^ 32) 32, ?_, scaled_range _ hn⟩
  show NumR.ok (floatToPoly (scaled ((next s).x.toNat % 2 ^ 32) 32)) = _
  rw [scaled_stored _ _ hn]

/-- Violated: after seed(591238) the second `random()` is 1. -/
theorem C49_violated_random : (outputs call [.seed (intToF 591238), .random, .random] ⟨0, 0⟩).getLast? =
    some (some (.ok (intToF 1))) ∧ Denotes (intToF 1) 1 := ⟨by decide +kernel, intToF_denotes (by constructor <;> decide)⟩

/-- Violated: the small generator's `random()` is not below 1: after seed(3) it is 1.71…. -/
theorem C49_violated_small_random : ∃ u, outputs Small.call [.seed (intToF 3), .random] 0 = [none, some (.ok u)] ∧ 2 ^ 149 < f32val u := by
  refine ⟨0x3fdb4030#32, by decide +kernel, by decide +kernel⟩

/-! ## Periods -/

/-- The state after `n` draws. -/
def iter {σ : Type} (f : σ → σ) : Nat → σ → σ
  | 0, s => s
  | n + 1, s => iter f n (f s)

theorem iter_w (n : Nat) : ∀ s : St, (iter next n s).w = s.w + BitVec.ofNat 64 n * 0xb5ad4eceda1ce2a9#64 := by
  induction n with
  | zero => intro s; simp [iter]
  | succ n ih =>
    intro s
    rw [iter, ih]
    show s.w + 0xb5ad4eceda1ce2a9#64 + _ = _
    rw [BitVec.ofNat_add, BitVec.add_mul, BitVec.add_assoc, BitVec.add_comm (BitVec.ofNat 64 n * _)]
    rw [show BitVec.ofNat 64 1 * 0xb5ad4eceda1ce2a9#64 = 0xb5ad4eceda1ce2a9#64 by decide +kernel]

/-- The state of the generator does not come back within 2^64 draws, from any state. -/
theorem C49_period (s : St) (n : Nat) (h : iter next n s = s) : n % 2 ^ 64 = 0 := by
  have hw := iter_w n s
  rw [h] at hw
  have h0 : BitVec.ofNat 64 n * 0xb5ad4eceda1ce2a9#64 = 0 := by
    have := congrArg (fun v => v - s.w) hw
    simp only [BitVec.sub_self] at this
    rw [BitVec.add_comm, BitVec.add_sub_cancel] at this
    exact this.symm
  have h1 : BitVec.ofNat 64 n * (0xb5ad4eceda1ce2a9#64 * 0xca6de00def16e199#64) = 0 := by rw [← BitVec.mul_assoc, h0]; exact BitVec.zero_mul
  rw [show (0xb5ad4eceda1ce2a9#64 * 0xca6de00def16e199#64) = 1#64 by decide +kernel, BitVec.mul_one] at h1
  have := congrArg BitVec.toNat h1
  simpa using this

/-! The small generator: its state after `n` draws is `a^n s + (1 + a + … + a^(n-1)) 12345`. -/

/-- `1 + a + … + a^(n-1)`. -/
def geo (a : Nat) : Nat → Nat
  | 0 => 0
  | n + 1 => 1 + a * geo a n

theorem geo_add (a m n : Nat) : geo a (m + n) = geo a m + a ^ m * geo a n := by
  induction m with
  | zero => simp [geo]
  | succ m ih => rw [show m + 1 + n = (m + n) + 1 by omega, geo, geo, ih, Nat.pow_succ, Nat.mul_add]; ac_rfl

theorem geo_pow (a n : Nat) (ha : 0 < a) : a ^ n = (a - 1) * geo a n + 1 := by
  induction n with
  | zero => simp [geo]
  | succ n ih =>
    rw [Nat.pow_succ, ih, geo]
    obtain ⟨b, rfl⟩ : ∃ b, a = b + 1 := ⟨a - 1, by omega⟩
    simp only [Nat.add_sub_cancel]
    rw [Nat.add_mul, Nat.mul_add b, Nat.mul_one, Nat.one_mul, Nat.mul_assoc, Nat.mul_comm (geo _ n)]
    omega

theorem pow_mod4 (a n : Nat) (ha : a % 4 = 1) : a ^ n % 4 = 1 := by
  induction n with
  | zero => rfl
  | succ n ih => rw [Nat.pow_succ, Nat.mul_mod, ih, ha]

theorem geo_odd (a n : Nat) (ha : a % 4 = 1) (hn : n % 2 = 1) : geo a n % 2 = 1 := by
  have : ∀ n, geo a n % 2 = n % 2 := by
    intro n
    induction n with
    | zero => rfl
    | succ n ih =>
      rw [geo, Nat.add_mod, Nat.mul_mod, ih, show a % 2 = 1 by omega]
      omega
  rw [this, hn]

/-- `2^k` divides the sum only if it divides the number of terms. -/
theorem geo_dvd (a : Nat) (ha : a % 4 = 1) (k : Nat) : ∀ n, 2 ^ k ∣ geo a n → 2 ^ k ∣ n := by
  induction k with
  | zero => intro n _; exact Nat.one_dvd _
  | succ k ih =>
    intro n h
    rcases Nat.mod_two_eq_zero_or_one n with hn | hn
    · obtain ⟨m, rfl⟩ := Nat.dvd_of_mod_eq_zero hn
      have e : geo a (2 * m) = geo a m * (1 + a ^ m) := by
        rw [show 2 * m = m + m by omega, geo_add, Nat.mul_add, Nat.mul_one, Nat.mul_comm (geo a m)]
      have h4 := pow_mod4 a m ha
      obtain ⟨r, hr⟩ : ∃ r, 1 + a ^ m = 2 * (2 * r + 1) := ⟨a ^ m / 4, by omega⟩
      rw [e, hr, Nat.pow_succ, show geo a m * (2 * (2 * r + 1)) = (geo a m * (2 * r + 1)) * 2 by ac_rfl] at h
      have h2 := Nat.dvd_of_mul_dvd_mul_right (by decide) h
      have hc : Nat.Coprime (2 ^ k) (2 * r + 1) := by
        apply Nat.Coprime.pow_left
        rw [Nat.Coprime, Nat.gcd_rec, show (2 * r + 1) % 2 = 1 by omega]; rfl
      rw [Nat.pow_succ, Nat.mul_comm]
      exact Nat.mul_dvd_mul_left 2 (ih m (hc.dvd_of_dvd_mul_right h2))
    · have h1 := geo_odd a n ha hn
      have : 2 ∣ geo a n := Nat.dvd_trans ⟨2 ^ k, by rw [Nat.pow_succ, Nat.mul_comm]⟩ h
      omega

theorem iter_small (n : Nat) : ∀ s : BitVec 32, (iter Small.next n s).toNat = (1103515245 ^ n * s.toNat + geo 1103515245 n * 12345) % 2 ^ 32 := by
  induction n with
  | zero => intro s; simp [iter, geo, Nat.mod_eq_of_lt s.isLt]
  | succ n ih =>
    intro s
    rw [iter, ih]
    unfold Small.next
    rw [BitVec.toNat_add, BitVec.toNat_mul]
    show (1103515245 ^ n * ((s.toNat * 1103515245 % 2 ^ 32 + 12345) % 2 ^ 32) + _) % 2 ^ 32 = _
    have e : geo 1103515245 (n + 1) = geo 1103515245 n + 1103515245 ^ n := by
      rw [geo_add]; simp [geo]
    rw [e, show 1103515245 ^ (n + 1) = 1103515245 ^ n * 1103515245 from Nat.pow_succ _ _]
    generalize 1103515245 ^ n = p
    generalize geo 1103515245 n = g
    rw [Nat.mod_add_mod, Nat.add_mod, Nat.mul_mod, Nat.mod_mod, ← Nat.mul_mod, ← Nat.add_mod]
    congr 1
    rw [Nat.mul_add, Nat.add_mul]
    have : p * (s.toNat * 1103515245) = p * 1103515245 * s.toNat := by ac_rfl
    omega

/-- The small generator goes through all 2^32 states before the first one comes back, from any state. -/
theorem C49_small_period (s : BitVec 32) (n : Nat) (h : iter Small.next n s = s) : n % 2 ^ 32 = 0 := by
  have h1 := iter_small n s
  rw [h, geo_pow _ n (by decide)] at h1
  have h2 : 2 ^ 32 ∣ geo 1103515245 n * ((1103515245 - 1) * s.toNat + 12345) := by
    have e : ((1103515245 - 1) * geo 1103515245 n + 1) * s.toNat + geo 1103515245 n * 12345 =
        geo 1103515245 n * ((1103515245 - 1) * s.toNat + 12345) + s.toNat := by
      rw [Nat.add_mul, Nat.mul_add, Nat.one_mul]
      have : (1103515245 - 1) * geo 1103515245 n * s.toNat = geo 1103515245 n * ((1103515245 - 1) * s.toNat) := by ac_rfl
      omega
    rw [e] at h1
    have := s.isLt
    omega
  have hc : Nat.Coprime (2 ^ 32) ((1103515245 - 1) * s.toNat + 12345) := by
    apply Nat.Coprime.pow_left
    rw [Nat.Coprime, Nat.gcd_rec, show ((1103515245 - 1) * s.toNat + 12345) % 2 = 1 by omega]; rfl
  exact Nat.mod_eq_zero_of_dvd (geo_dvd 1103515245 (by decide) 32 n (hc.dvd_of_dvd_mul_right h2))

/-- … but it is not random: `randrange(2)` alternates, whatever the seed. -/
theorem C49_violated_small_alternates (a : BitVec 32) (h : Denotes a 2) (s : BitVec 32) :
    (Small.randrange a (Small.randrange a s).2).1 ≠ (Small.randrange a s).1 := by
  unfold Small.randrange
  rw [fToU32_int h (by omega) (by omega)]
  show NumR.ok (floatToPoly (intToF ((Small.next (Small.next s)).toNat % 2 : Nat))) ≠ NumR.ok (floatToPoly (intToF ((Small.next s).toNat % 2 : Nat)))
  have e : (Small.next (Small.next s)).toNat % 2 = 1 - (Small.next s).toNat % 2 := by
    generalize Small.next s = t
    unfold Small.next
    rw [BitVec.toNat_add, BitVec.toNat_mul]
    show (t.toNat * 1103515245 % 2 ^ 32 + 12345) % 2 ^ 32 % 2 = _
    omega
  rw [e]
  rcases Nat.mod_two_eq_zero_or_one (Small.next s).toNat with h0 | h0 <;> rw [h0] <;> decide +kernel

/-- Non-vacuity: a die. -/
example : Denotes (intToF 6) 6 ∧ outputs call [.seed (intToF 1), .randrange (intToF 6), .randrange (intToF 6), .random] ⟨5, 7⟩ =
    outputs call [.seed (intToF 1), .randrange (intToF 6), .randrange (intToF 6), .random] ⟨0, 0⟩ :=
  ⟨intToF_denotes (by constructor <;> decide), C49_reproducible _ _ _ _⟩

end Snek.Random
