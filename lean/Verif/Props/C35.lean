import Verif.Proofs.Number
/-!
# C35 Integer arithmetic is exact up to 24 bits

`numBinary` is the model of the operators on two numbers (snek-exec.c:325-371) over IEEE binary32 with round to nearest even.
`Spec.Denotes u i`: `u` is a finite number whose value is exactly the integer `i`. `Spec.Int24`: at most 2^24 in magnitude.
`Int.fdiv`/`Int.fmod` are Lean's floor division and its remainder.
-/
namespace Snek
open Spec

/-- `+`, `-` and `*` give the exact integer whenever it is at most 2^24 in magnitude (whatever the size of the operands). -/
theorem C35_ring (powf) (a b : BitVec 32) (x y : Int) (ha : Denotes a x) (hb : Denotes b y) :
    (Int24 (x + y) → ∃ u, numBinary powf .plus a b = .ok u ∧ Denotes u (x + y)) ∧
    (Int24 (x - y) → ∃ u, numBinary powf .minus a b = .ok u ∧ Denotes u (x - y)) ∧
    (Int24 (x * y) → ∃ u, numBinary powf .times a b = .ok u ∧ Denotes u (x * y)) := by
  refine ⟨fun h => ?_, fun h => ?_, fun h => ?_⟩
  · have := fadd_int ha hb h
    exact ⟨_, by simp only [numBinary, this.toPoly], this⟩
  · have := fsub_int ha hb h
    exact ⟨_, by simp only [numBinary, this.toPoly], this⟩
  · have := fmul_int ha hb h
    exact ⟨_, by simp only [numBinary, this.toPoly], this⟩

/-- `//` gives the exact floor of the quotient for all 24-bit operands, although the quotient itself is rounded. -/
theorem C35_div (powf) (a b : BitVec 32) (x y : Int) (ha : Denotes a x) (hb : Denotes b y) (hx : Int24 x) (hy : Int24 y)
    (h0 : y ≠ 0) : ∃ u, numBinary powf .div a b = .ok u ∧ Denotes u (x.fdiv y) := by
  have := floordiv_int ha hb hx hy h0
  exact ⟨_, by simp only [numBinary, this.toPoly], this⟩

/-- `%` gives the exact remainder for all 24-bit operands for which the intermediate product `(x//y)*y` is itself at most
2^24 in magnitude; the remainder is in `0 ≤ r < y` for positive `y`, and `x = (x//y)*y + x%y`. Missing from the full
claim: the operands for which that product is larger (see `C35_violated_mod`). -/
theorem C35_mod_partial (powf) (a b : BitVec 32) (x y : Int) (ha : Denotes a x) (hb : Denotes b y) (hx : Int24 x)
    (hy : Int24 y) (h0 : y ≠ 0) (hp : Int24 (x.fdiv y * y)) :
    ∃ q r, (∃ u, numBinary powf .div a b = .ok u ∧ Denotes u q) ∧ (∃ u, numBinary powf .mod a b = .ok u ∧ Denotes u r) ∧
      x = q * y + r ∧ (0 < y → 0 ≤ r ∧ r < y) ∧ (y < 0 → y < r ∧ r ≤ 0) := by
  have hm := fmod_int ha hb hx hy h0 hp
  refine ⟨x.fdiv y, x.fmod y, C35_div powf a b x y ha hb hx hy h0, ⟨_, by simp only [numBinary, hm.toPoly], hm⟩, ?_, ?_, ?_⟩
  · rw [Int.fmod_def, Int.mul_comm]; omega
  · intro h; exact ⟨Int.fmod_nonneg_of_pos x h, Int.fmod_lt_of_pos x h⟩
  · intro h
    have h1 := Int.fmod_lt_of_pos (-x) (show 0 < -y by omega)
    have h2 := Int.fmod_nonneg_of_pos (-x) (show 0 < -y by omega)
    rw [Int.neg_fmod_neg] at h1 h2
    omega

/-- The common case: non-negative dividend, positive divisor. No side condition on the product. -/
theorem C35_mod_nonneg (powf) (a b : BitVec 32) (x y : Int) (ha : Denotes a x) (hb : Denotes b y) (hx : Int24 x)
    (hy : Int24 y) (hx0 : 0 ≤ x) (h0 : 0 < y) :
    ∃ q r, (∃ u, numBinary powf .div a b = .ok u ∧ Denotes u q) ∧ (∃ u, numBinary powf .mod a b = .ok u ∧ Denotes u r) ∧
      x = q * y + r ∧ 0 ≤ r ∧ r < y := by
  have hp : Int24 (x.fdiv y * y) := by
    have h1 := Int.fmod_nonneg_of_pos x h0
    have h2 : x.fdiv y * y = x - x.fmod y := by rw [Int.fmod_def, Int.mul_comm]; omega
    have h3 : 0 ≤ x.fdiv y := Int.fdiv_nonneg hx0 (by omega)
    have h4 : 0 ≤ x.fdiv y * y := Int.mul_nonneg h3 (by omega)
    obtain ⟨_, hx2⟩ := hx
    constructor <;> omega
  obtain ⟨q, r, h1, h2, h3, h4, -⟩ := C35_mod_partial powf a b x y ha hb hx hy (by omega) hp
  exact ⟨q, r, h1, h2, h3, h4 h0⟩

/-- Comparisons of integers of any size are comparisons of the integers. -/
theorem C35_compare (a b : BitVec 32) (x y : Int) (ha : Denotes a x) (hb : Denotes b y) :
    (cmpOp .lt (.num a) (.num b) = true ↔ x < y) ∧ (cmpOp .le (.num a) (.num b) = true ↔ x ≤ y) ∧
    (cmpOp .eq (.num a) (.num b) = true ↔ x = y) ∧ (cmpOp .ne (.num a) (.num b) = true ↔ x ≠ y) ∧
    (cmpOp .gt (.num a) (.num b) = true ↔ x > y) ∧ (cmpOp .ge (.num a) (.num b) = true ↔ x ≥ y) := by
  have nn : ∀ {u i}, Denotes u i → Snek.isNan u = false := by
    intro u i h
    unfold isNan
    apply beq_false_of_ne
    rintro rfl
    exact absurd h.nan (by decide)
  have key : ∀ {u v : BitVec 32} {i j : Int}, Denotes u i → Denotes v j → (fltF u v = true ↔ i < j) := by
    intro u v i j hu hv
    unfold fltF
    rw [hu.nan, hv.nan]
    simp only [Bool.not_false, Bool.true_and, decide_eq_true_eq]
    rw [fkey_val, hu.2, hv.2]
    constructor
    · intro h; exact Int.lt_of_mul_lt_mul_right h (by decide)
    · intro h; exact Int.mul_lt_mul_of_pos_right h (by decide)
  have k1 := key ha hb
  have k2 := key hb ha
  simp only [cmpOp, Tree.isNan, nn ha, nn hb, Tree.cmp, numCmp, Bool.or_self, Bool.false_eq_true, if_false, b2i]
  simp only [Int.sub_self, ne_eq, not_true_eq_false, if_false, decide_eq_true_eq]
  by_cases h1 : x < y
  · have h2 : ¬ y < x := by omega
    rw [if_neg (mt k2.1 h2), if_pos (k1.2 h1)]
    refine ⟨?_, ?_, ?_, ?_, ?_, ?_⟩ <;> omega
  · rw [if_neg (mt k1.1 h1)]
    by_cases h2 : y < x
    · rw [if_pos (k2.2 h2)]
      refine ⟨?_, ?_, ?_, ?_, ?_, ?_⟩ <;> omega
    · rw [if_neg (mt k2.1 h2)]
      refine ⟨?_, ?_, ?_, ?_, ?_, ?_⟩ <;> omega

/-- Every 24-bit integer is a number, so the hypotheses above are met by all of them. -/
theorem C35_representable (x : Int) (hx : Int24 x) : ∃ u, Denotes u x := ⟨_, intToF_denotes hx⟩

/-- The full claim fails for `%`: both operands are 24-bit integers, the remainder is 5, the operator yields 4. -/
theorem C35_violated_mod : ∃ (a b u : BitVec 32) (x y : Int), Denotes a x ∧ Denotes b y ∧ Int24 x ∧ Int24 y ∧ 0 < y ∧
    numBinary (fun a _ => a) .mod a b = .ok u ∧ Denotes u 4 ∧ x % y = 5 := by
  refine ⟨intToF (-2 ^ 24), intToF 5592407, intToF 4, -2 ^ 24, 5592407, intToF_denotes ?_, intToF_denotes ?_, ?_, ?_,
    by decide, by decide +kernel, intToF_denotes ?_, by decide⟩ <;> unfold Int24 <;> omega

/-- Non-trivial instance: 16777213 // 7 and 16777213 % 7. -/
example : ∃ q r, (∃ u, numBinary (fun a _ => a) .div (intToF 16777213) (intToF 7) = .ok u ∧ Denotes u q) ∧
    (∃ u, numBinary (fun a _ => a) .mod (intToF 16777213) (intToF 7) = .ok u ∧ Denotes u r) ∧
    16777213 = q * 7 + r ∧ 0 ≤ r ∧ r < 7 :=
  C35_mod_nonneg _ _ _ _ _ (intToF_denotes (by unfold Int24; omega)) (intToF_denotes (by unfold Int24; omega))
    (by unfold Int24; omega) (by unfold Int24; omega) (by omega) (by omega)

end Snek
