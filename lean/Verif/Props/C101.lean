import Verif.Model.Math
import Verif.Proofs.Number
import Verif.Proofs.NumIns
/-!
# C101: math.factorial

`Denotes u n`: the number `u` is the integer `n`; `f32val u` is the value of `u` in units of 2^-149.
-/
namespace Snek
open Spec

/-- n! -/
def Spec.fact : Nat → Nat
  | 0 => 1
  | n + 1 => (n + 1) * Spec.fact n

theorem fle_val {a b : BitVec 32} (ha : isNanF a = false) (hb : isNanF b = false) : fle a b = decide (f32val a ≤ f32val b) := by
  have h := fkey_val b a
  simp only [fle, ha, hb, Bool.not_false, Bool.true_and]
  congr 1
  exact propext (by omega)

theorem small_int : ∀ k : Fin 64, isNanF (intToF (k.val : Int)) = false ∧ f32val (intToF (k.val : Int)) = (k.val : Int) * 2 ^ 149 ∧
    fadd (intToF (k.val : Int)) (intToF 1) = intToF ((k.val + 1 : Nat) : Int) := by decide +kernel

/-- The loop looks at its bound only through comparisons with small integers. -/
theorem factLoop_congr {u v : BitVec 32} (h : ∀ j : Nat, j < 64 → fle (intToF (j : Int)) u = fle (intToF (j : Int)) v) (m : Nat) :
    ∀ (k : Nat) (r : BitVec 32), k + m < 64 → factLoop u r (intToF (k : Int)) m = factLoop v r (intToF (k : Int)) m := by
  induction m with
  | zero => intros; rfl
  | succ m ih =>
    intro k r hk
    have := (small_int ⟨k, by omega⟩).2.2
    simp only at this
    simp only [factLoop]
    rw [h k (by omega), this, ih (k + 1) _ (by omega)]

/-- Between two integers `factorial` is that of the lower one. -/
theorem factorial_floor {u : BitVec 32} (hu : isNanF u = false) (n : Nat) (hn : n ≤ 34) (h1 : (n : Int) * 2 ^ 149 ≤ f32val u)
    (h2 : f32val u < ((n : Int) + 1) * 2 ^ 149) : factorialf u = factorialf (intToF (n : Int)) := by
  obtain ⟨n1, n2, -⟩ := small_int ⟨n, by omega⟩
  obtain ⟨k1, k2, -⟩ := small_int ⟨35, by omega⟩
  simp only at n1 n2 k1 k2
  have c1 := fkey_val (intToF 35) u
  have c2 := fkey_val (intToF 35) (intToF (n : Int))
  have e1 : ¬ fkey (intToF 35) < fkey u := by rw [c1]; rw [show ((35 : Nat) : Int) = 35 from rfl] at k2; rw [k2]; omega
  have e2 : ¬ fkey (intToF 35) < fkey (intToF (n : Int)) := by rw [c2, n2]; rw [show ((35 : Nat) : Int) = 35 from rfl] at k2; rw [k2]; omega
  unfold factorialf
  simp only [e1, e2, decide_false, Bool.and_false, Bool.false_eq_true, if_false]
  refine factLoop_congr (fun j hj => ?_) 40 2 _ (by omega)
  obtain ⟨j1, j2, -⟩ := small_int ⟨j, hj⟩
  simp only at j1 j2
  rw [fle_val j1 hu, fle_val j1 n1, j2, n2]
  congr 1
  exact propext (by omega)

theorem fact_table : ∀ n : Fin 35, isFin (factorialf (intToF (n.val : Int))) = true ∧
    (f32val (factorialf (intToF (n.val : Int))) - Spec.fact n.val * 2 ^ 149).natAbs * 2 ^ 22 ≤ Spec.fact n.val * 2 ^ 149 ∧
    (n.val ≤ 13 → f32val (factorialf (intToF (n.val : Int))) = Spec.fact n.val * 2 ^ 149) := by decide +kernel

theorem not_nan {u : BitVec 32} (h : u.toNat % 2 ^ 31 < 0x7f800000) : isNanF u = false := by
  simp only [isNanF]
  exact decide_eq_false (by omega)

/-- C101: `factorial(n)` is n! exactly up to 13, with a relative error of at most 2^-22 up to 34, and infinity from 35 on (where n! is larger than any
number). -/
theorem C101_factorial (u : BitVec 32) (n : Nat) (hu : Denotes u n) :
    (n ≤ 13 → Denotes (factorialf u) (Spec.fact n)) ∧
    (n ≤ 34 → (factorialf u).toNat % 2 ^ 31 < 0x7f800000 ∧
      (f32val (factorialf u) - Spec.fact n * 2 ^ 149).natAbs * 2 ^ 22 ≤ Spec.fact n * 2 ^ 149) ∧
    (35 ≤ n → factorialf u = 0x7f800000) := by
  have hnan := not_nan hu.1
  have key : n ≤ 34 → factorialf u = factorialf (intToF (n : Int)) := fun h =>
    factorial_floor hnan n h (by rw [hu.2]; exact Int.le_refl _) (by rw [hu.2]; omega)
  refine ⟨fun h => ?_, fun h => ?_, fun h => ?_⟩
  · obtain ⟨a, -, c⟩ := fact_table ⟨n, by omega⟩
    rw [key (by omega)]
    exact ⟨of_decide_eq_true a, c h⟩
  · obtain ⟨a, b, -⟩ := fact_table ⟨n, by omega⟩
    rw [key h]
    exact ⟨of_decide_eq_true a, b⟩
  · obtain ⟨k1, k2, -⟩ := small_int ⟨35, by omega⟩
    simp only [show ((35 : Nat) : Int) = 35 from rfl] at k1 k2
    by_cases h35 : n = 35
    · subst h35
      have hk : fkey u = fkey (intToF 35) := (fkey_val_eq _ _).2 (by rw [hu.2, k2]; rfl)
      have : u = intToF 35 := by
        refine Snek.Vm.fkey_inj hk ?_
        rw [hk]; decide +kernel
      rw [this]; decide +kernel
    · unfold factorialf
      have : fkey (intToF 35) < fkey u := by
        rw [fkey_val, hu.2, k2]; omega
      simp only [this, hnan, decide_true, Bool.not_false, Bool.and_self, if_true]

/-- From 35 on n! is above the largest number and the rounding limit: infinity is the correctly rounded result. -/
theorem C101_limit (n : Nat) (h : 35 ≤ n) : (2 ^ 24 - 1) * 2 ^ 253 + 2 ^ 277 ≤ 2 * (Spec.fact n * 2 ^ 149) := by
  induction h with
  | refl => decide +kernel
  | @step n h ih =>
    refine Nat.le_trans ih ?_
    simp only [Spec.fact]
    have := Nat.mul_le_mul_right (2 ^ 149) (Nat.le_mul_of_pos_left (Spec.fact n) (show 0 < n + 1 by omega))
    omega

/-- What else there is: numbers between integers are rounded down, anything below 2 and NaN give 1, infinity gives infinity. -/
theorem C101_other (u : BitVec 32) :
    (∀ n : Nat, isNanF u = false → (n : Int) * 2 ^ 149 ≤ f32val u → f32val u < ((n : Int) + 1) * 2 ^ 149 →
      ∀ v, Denotes v n → factorialf u = factorialf v) ∧
    (isNanF u = true ∨ f32val u < 2 * 2 ^ 149 → factorialf u = intToF 1) ∧
    (isNanF u = false → 35 * 2 ^ 149 < f32val u → factorialf u = 0x7f800000) := by
  obtain ⟨k1, k2, -⟩ := small_int ⟨35, by omega⟩
  obtain ⟨t1, t2, -⟩ := small_int ⟨2, by omega⟩
  simp only [show ((35 : Nat) : Int) = 35 from rfl, show ((2 : Nat) : Int) = 2 from rfl] at k1 k2 t1 t2
  have big : ∀ u : BitVec 32, isNanF u = false → 35 * 2 ^ 149 < f32val u → factorialf u = 0x7f800000 := by
    intro u hu h
    unfold factorialf
    have : fkey (intToF 35) < fkey u := by rw [fkey_val, k2]; exact h
    simp only [this, hu, decide_true, Bool.not_false, Bool.and_self, if_true]
  refine ⟨fun n hu h1 h2 v hv => ?_, fun h => ?_, big u⟩
  · by_cases hn : n ≤ 34
    · rw [factorial_floor hu n hn h1 h2, factorial_floor (not_nan hv.1) n hn (by rw [hv.2]; exact Int.le_refl _) (by rw [hv.2]; omega)]
    · rw [(C101_factorial v n hv).2.2 (by omega)]
      by_cases he : f32val u = 35 * 2 ^ 149
      · have hk : fkey u = fkey (intToF 35) := (fkey_val_eq _ _).2 (by rw [he, k2])
        have : u = intToF 35 := by
          refine Snek.Vm.fkey_inj hk ?_
          rw [hk]; decide +kernel
        rw [this]; decide +kernel
      · exact big u hu (by omega)
  · unfold factorialf
    rcases h with h | h
    · simp only [h, Bool.not_true, Bool.false_and, Bool.false_eq_true, if_false, factLoop, fle, Bool.and_false]
    · have e1 : ¬ fkey (intToF 35) < fkey u := by rw [fkey_val, k2]; omega
      have e2 : fle (intToF 2) u = false := by
        by_cases hu : isNanF u = true
        · simp [fle, hu]
        · rw [fle_val t1 (by simpa using hu), t2]
          exact decide_eq_false (by omega)
      simp only [e1, decide_false, Bool.and_false, Bool.false_eq_true, if_false, factLoop, e2]

/-- There is no error for numbers that have no factorial: `factorial(2.5)` is 2 and `factorial(-1)` is 1. -/
theorem C101_violated_domain : factorialf 0x40200000 = intToF 2 ∧ factorialf (intToF (-1)) = intToF 1 := by decide +kernel

/-- `factorial(9) == 362880`; `factorial(34)` is finite, `factorial(35)` is not. -/
example : Denotes (intToF 9) (9 : Nat) ∧ factorialf (intToF 9) = intToF 362880 ∧ isFin (factorialf (intToF 34)) = true ∧ factorialf (intToF 35) = 0x7f800000 :=
  ⟨intToF_denotes ⟨by decide, by decide⟩, by decide +kernel⟩

end Snek
