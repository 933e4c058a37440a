import Verif.Proofs.Number
/-!
# C56 Power by repeated squaring

`ipow` models the integer path of the small `powf` (snek-pow.c:119-139).
-/
namespace Snek
open Spec

/-- Loop invariant: `r * a^x` is unchanged. Every product formed on the way to a result of at most 2^24 is exact. -/
private theorem loop_spec (x : Nat) : ∀ (r a : BitVec 32) (i z : Int), Denotes r i → Denotes a z → i ≠ 0 → z ≠ 0 →
    Int24 (i * z ^ x) → Denotes (ipowLoop r a x) (i * z ^ x) := by
  induction x using Nat.strongRecOn with
  | _ x ih =>
    intro r a i z hr ha hi hz h
    unfold ipowLoop
    by_cases hx : x = 0
    · subst hx; simp only [dif_pos]; simpa using hr
    · rw [dif_neg hx]
      have abs_le : ∀ {u v : Int}, v ≠ 0 → (u.natAbs ≤ (u * v).natAbs) := by
        intro u v hv
        rw [Int.natAbs_mul]
        exact Nat.le_mul_of_pos_right _ (by omega)
      have toI : ∀ {u v : Int}, u.natAbs ≤ v.natAbs → Int24 v → Int24 u := by
        intro u v h1 h2; obtain ⟨h3, h4⟩ := h2; constructor <;> omega
      have pow0 : ∀ n : Nat, z ^ n ≠ 0 := fun n => Int.pow_ne_zero hz
      -- x = 2 * (x/2) + x % 2
      by_cases h1 : x / 2 = 0
      · have hx1 : x = 1 := by omega
        subst hx1
        rw [if_pos (by decide)]
        unfold ipowLoop
        simp only [show 1 / 2 = 0 from rfl, dif_pos]
        rw [Int.pow_one] at h ⊢
        exact fmul_int hr ha h
      · have hsq : Int24 (z * z) := by
          refine toI ?_ h
          have e : i * z ^ x = (z * z) * (i * z ^ (x - 2)) := by
            have : z ^ x = z ^ (x - 2) * (z * z) := by
              have : x = (x - 2) + 2 := by omega
              conv => lhs; rw [this, Int.pow_add]
              rw [Int.pow_succ, Int.pow_one]
            rw [this]; ac_rfl
          rw [e]
          apply abs_le
          exact Int.mul_ne_zero hi (pow0 _)
        have ha2 := fmul_int ha ha hsq
        have hz2 : z * z ≠ 0 := Int.mul_ne_zero hz hz
        have epow : (z * z) ^ (x / 2) = z ^ (2 * (x / 2)) := by
          rw [Int.pow_mul, Int.pow_succ, Int.pow_one]
        by_cases hodd : x % 2 = 1
        · rw [if_pos hodd]
          have e : i * z ^ x = (i * z) * (z * z) ^ (x / 2) := by
            have : x = 1 + 2 * (x / 2) := by omega
            conv => lhs; rw [this]
            rw [Int.pow_add, Int.pow_one, epow]
            ac_rfl
          rw [e] at h ⊢
          have hr2 : Int24 (i * z) := toI (abs_le (by rw [epow]; exact pow0 _)) h
          exact ih (x / 2) (by omega) _ _ _ _ (fmul_int hr ha hr2) ha2 (Int.mul_ne_zero hi hz) hz2 h
        · rw [if_neg hodd]
          have e : i * z ^ x = i * (z * z) ^ (x / 2) := by
            have : x = 2 * (x / 2) := by omega
            conv => lhs; rw [this]
            rw [epow]
          rw [e] at h ⊢
          exact ih (x / 2) (by omega) _ _ _ _ hr ha2 hi hz2 h

private theorem fmul_zero {a b : BitVec 32} {y : Int} (ha : Denotes a 0) (hb : Denotes b y) : Denotes (fmul a b) 0 := by
  have := fmul_int ha hb (show Int24 (0 * y) by rw [Int.zero_mul]; unfold Int24; omega)
  rwa [Int.zero_mul] at this

private theorem loop_zero (x : Nat) : ∀ (r a : BitVec 32) (i : Int), Denotes r i → Denotes a 0 → Int24 i →
    Denotes (ipowLoop r a x) (if x = 0 then i else 0) := by
  induction x using Nat.strongRecOn with
  | _ x ih =>
    intro r a i hr ha h
    unfold ipowLoop
    by_cases hx : x = 0
    · subst hx; simpa using hr
    · rw [dif_neg hx, if_neg hx]
      have ha2 := fmul_zero ha ha
      by_cases hodd : x % 2 = 1
      · rw [if_pos hodd]
        have hr2 : Denotes (fmul r a) 0 := by
          have := fmul_int hr ha (show Int24 (i * 0) by rw [Int.mul_zero]; unfold Int24; omega)
          rwa [Int.mul_zero] at this
        have := ih (x / 2) (by omega) _ _ _ hr2 ha2 (by unfold Int24; omega)
        split at this <;> exact this
      · rw [if_neg hodd]
        have := ih (x / 2) (by omega) _ _ _ hr ha2 h
        rwa [if_neg (by omega)] at this

/-- For every integer base and every exponent: when the power is at most 2^24 in magnitude the routine returns exactly it
(`Int.pow` is repeated multiplication). -/
theorem C56_power (a : BitVec 32) (z : Int) (x : Nat) (ha : Denotes a z) (h : Int24 (z ^ x)) :
    Denotes (ipow a x) (z ^ x) := by
  unfold ipow
  have h1 : Denotes (intToF 1) 1 := intToF_denotes (by unfold Int24; omega)
  by_cases hz : z = 0
  · subst hz
    have := loop_zero x _ _ _ h1 ha (by unfold Int24; omega)
    by_cases hx : x = 0
    · subst hx; simpa using this
    · rw [if_neg hx] at this
      rw [Int.zero_pow hx]; exact this
  · have := loop_spec x _ _ 1 z h1 ha (by decide) hz (by rw [Int.one_mul]; exact h)
    rwa [Int.one_mul] at this

/-- The operator `**` of a build that uses the small `powf`, for integer base and exponent 0..255. -/
theorem C56_operator (gen) (a b : BitVec 32) (z : Int) (x : Nat) (ha : Denotes a z) (hb : Denotes b x) (hx : x < 256)
    (h : Int24 (z ^ x)) : ∃ u, numBinary (powfSmall gen) .pow a b = .ok u ∧ Denotes u (z ^ x) := by
  have ht : ftrunc b = x := by unfold ftrunc; rw [hb.val]; exact Int.mul_tdiv_cancel _ (by decide)
  have hd := C56_power a z x ha h
  have hi : Denotes (intToF x) x := intToF_denotes (by constructor <;> omega)
  have he : feq (intToF x) b = true := by
    unfold feq
    rw [hi.nan, hb.nan]
    simp only [Bool.not_false, Bool.true_and, beq_iff_eq]
    rw [fkey_val_eq, hi.2, hb.2]
  refine ⟨_, ?_, hd⟩
  have hc : isFin b = true ∧ 0 ≤ ftrunc b ∧ ftrunc b < 256 ∧ feq (intToF (ftrunc b)) b = true := by
    rw [ht]; exact ⟨hb.fin, by omega, by omega, he⟩
  simp only [numBinary, powfSmall]
  rw [if_pos hc, ht, Int.toNat_natCast, hd.toPoly]

/-- (-3)^15 = -14348907 meets the hypotheses. -/
example : Denotes (ipow (intToF (-3)) 15) ((-3) ^ 15) :=
  C56_power _ _ _ (intToF_denotes (by unfold Int24; omega)) (by unfold Int24; omega)

end Snek
