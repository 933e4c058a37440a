import Verif.Proofs.Number
/-!
# C36 Bitwise operators act on the integer values

`Spec.ibit x k` is bit `k` of the two's complement (infinitely sign-extended) integer `x`.
-/
namespace Snek
open Spec

/-- Bits of a 32-bit word read as a signed integer. -/
private theorem ibit_toInt (v : BitVec 32) (k : Nat) :
    ibit v.toInt k ↔ (if k < 32 then v.getLsbD k else v.msb) = true := by
  have h1 : v.toInt / 2 ^ k = (v.sshiftRight k).toInt := by
    rw [BitVec.toInt_sshiftRight, Int.shiftRight_eq_div_pow]; rfl
  have h2 : ∀ w : BitVec 32, w.toInt % 2 = 1 ↔ w.getLsbD 0 = true := by
    intro w
    rw [BitVec.toInt_eq_toNat_cond, BitVec.getLsbD, Nat.testBit_zero]
    simp only [decide_eq_true_eq]
    split <;> omega
  unfold ibit
  rw [h1, h2, BitVec.getLsbD_sshiftRight]
  simp

private theorem ibit_ofInt {x : Int} (h : Int32 x) : (BitVec.ofInt 32 x).toInt = x := by
  rw [BitVec.toInt_ofInt]
  obtain ⟨h1, h2⟩ := h
  rw [Int.bmod_eq_of_le (by omega) (by omega)]

private theorem denotes_abs {a : BitVec 32} {x : Int} (h : Denotes a x) : ∃ m, fmag m = x.natAbs * 2 ^ 149 := by
  have hv := h.val
  unfold fval at hv
  split at hv
  · refine ⟨a.toNat - 2 ^ 31, ?_⟩
    rw [← natAbs_scale]; omega
  · refine ⟨a.toNat, ?_⟩
    rw [← natAbs_scale]; omega

/-- An integer that some number has as its value is converted exactly. -/
private theorem intToF_of {a : BitVec 32} {x : Int} (h : Denotes a x) (hx : Int32 x) : Denotes (intToF x) x := by
  unfold intToF
  split
  · rename_i h0; subst h0; exact denotes_zero false
  · rename_i h0
    obtain ⟨m, hm⟩ := denotes_abs h
    obtain ⟨c, k, hc, hlt⟩ := fmag_form m
    unfold fround
    rw [natAbs_scale]
    have hb : x.natAbs * 2 ^ 149 < 2 ^ 200 := by
      have h1 : x.natAbs ≤ 2 ^ 31 := by obtain ⟨h1, h2⟩ := hx; omega
      refine Nat.lt_of_le_of_lt (Nat.mul_le_mul_right (2 ^ 149) h1) ?_
      rw [← Nat.pow_add]; exact Nat.pow_lt_pow_right (by decide) (by decide)
    have := round_exact (x.natAbs * 2 ^ 149) 1 c k (by decide) (by rw [← hm, hc]) hlt hb
    rw [Nat.mul_one] at this
    refine denotes_fmk _ _ x.natAbs x this.2 this.1 ?_
    have e := scale_neg x
    by_cases h : x < 0
    · simp only [e.2 h, decide_true, if_true]; omega
    · have : ¬ x * 2 ^ 149 < 0 := fun h' => h (e.1 h')
      simp only [this, decide_false]; simp; omega

private theorem ftrunc_int {a : BitVec 32} {x : Int} (h : Denotes a x) : ftrunc a = x := by
  unfold ftrunc; rw [h.val]; exact Int.mul_tdiv_cancel _ (by decide)

theorem floatToInt_int {a : BitVec 32} {x : Int} (h : Denotes a x) (hx : Int32 x) :
    floatToInt a = some (some x) := by
  unfold floatToInt fToInt
  rw [ftrunc_int h]
  have hc : isFin a = true ∧ -(2:Int) ^ (32 - 1) ≤ x ∧ x < 2 ^ (32 - 1) := ⟨h.fin, hx.1, hx.2⟩
  rw [if_pos hc]
  have h2 := intToF_of h hx
  have : feq (intToF x) a = true := by
    unfold feq
    rw [h2.nan, h.nan]
    simp only [Bool.not_false, Bool.true_and, beq_iff_eq]
    rw [fkey_val_eq, h2.2, h.2]
  simp [this]

/-- `&`, `|` and `^` on 32-bit integers: when the two's complement result is at most 2^24 in magnitude the operator yields
exactly that integer. -/
theorem C36_bitwise (powf) (a b : BitVec 32) (x y : Int) (ha : Denotes a x) (hb : Denotes b y) (hx : Int32 x) (hy : Int32 y) :
    (∃ r, Int32 r ∧ (∀ k, ibit r k ↔ (ibit x k ∧ ibit y k)) ∧
      (Int24 r → ∃ u, numBinary powf .land a b = .ok u ∧ Denotes u r)) ∧
    (∃ r, Int32 r ∧ (∀ k, ibit r k ↔ (ibit x k ∨ ibit y k)) ∧
      (Int24 r → ∃ u, numBinary powf .lor a b = .ok u ∧ Denotes u r)) ∧
    (∃ r, Int32 r ∧ (∀ k, ibit r k ↔ ¬ (ibit x k ↔ ibit y k)) ∧
      (Int24 r → ∃ u, numBinary powf .lxor a b = .ok u ∧ Denotes u r)) := by
  have rng : ∀ v : BitVec 32, Int32 v.toInt := fun v => by
    have h1 := BitVec.le_toInt v; have h2 := @BitVec.toInt_lt 32 v
    constructor <;> simpa using by first | exact h1 | exact h2
  have bx : ∀ k, ibit x k ↔ (if k < 32 then (BitVec.ofInt 32 x).getLsbD k else (BitVec.ofInt 32 x).msb) = true := fun k => by
    rw [← ibit_toInt, ibit_ofInt hx]
  have by' : ∀ k, ibit y k ↔ (if k < 32 then (BitVec.ofInt 32 y).getLsbD k else (BitVec.ofInt 32 y).msb) = true := fun k => by
    rw [← ibit_toInt, ibit_ofInt hy]
  have ia := floatToInt_int ha hx
  have ib := floatToInt_int hb hy
  refine ⟨⟨((BitVec.ofInt 32 x) &&& (BitVec.ofInt 32 y)).toInt, rng _, ?_, ?_⟩,
    ⟨((BitVec.ofInt 32 x) ||| (BitVec.ofInt 32 y)).toInt, rng _, ?_, ?_⟩,
    ⟨((BitVec.ofInt 32 x) ^^^ (BitVec.ofInt 32 y)).toInt, rng _, ?_, ?_⟩⟩
  · intro k
    rw [ibit_toInt, bx, by']
    by_cases h : k < 32 <;> simp [h]
  · intro h
    have := intToF_denotes h
    exact ⟨_, by simp only [numBinary, bitop, ia, ib, bits32, this.toPoly], this⟩
  · intro k
    rw [ibit_toInt, bx, by']
    by_cases h : k < 32 <;> simp [h]
  · intro h
    have := intToF_denotes h
    exact ⟨_, by simp only [numBinary, bitop, ia, ib, bits32, this.toPoly], this⟩
  · intro k
    rw [ibit_toInt, bx, by']
    by_cases h : k < 32 <;> simp only [h, if_true, if_false, BitVec.getLsbD_xor, BitVec.msb_xor]
    · cases (BitVec.ofInt 32 x).getLsbD k <;> cases (BitVec.ofInt 32 y).getLsbD k <;> decide
    · cases (BitVec.ofInt 32 x).msb <;> cases (BitVec.ofInt 32 y).msb <;> decide
  · intro h
    have := intToF_denotes h
    exact ⟨_, by simp only [numBinary, bitop, ia, ib, bits32, this.toPoly], this⟩

/-- `<<` and `>>` with a shift count of 0..31: `x << n` is `x * 2^n` for non-negative `x` and a result that is at most 2^24,
`x >> n` is the floor of `x / 2^n`. -/
theorem C36_shift (powf) (a b : BitVec 32) (x : Int) (n : Nat) (ha : Denotes a x) (hb : Denotes b n) (hx : Int32 x)
    (hn : n < 32) :
    (0 ≤ x → Int24 (x * 2 ^ n) → ∃ u, numBinary powf .lshift a b = .ok u ∧ Denotes u (x * 2 ^ n)) ∧
    (Int24 (x / 2 ^ n) → ∃ u, numBinary powf .rshift a b = .ok u ∧ Denotes u (x / 2 ^ n)) := by
  have ia := floatToInt_int ha hx
  have ib := floatToInt_int hb (show Int32 n by constructor <;> omega)
  constructor
  · intro h0 h
    have hd := intToF_denotes h
    have hc : (0:Int) ≤ n ∧ (n:Int) < 32 ∧ 0 ≤ x ∧ x * 2 ^ n < 2 ^ 31 := ⟨by omega, by omega, h0, by obtain ⟨_, h2⟩ := h; omega⟩
    exact ⟨_, by simp only [numBinary, bitop, ia, ib, shl32, Int.toNat_natCast, hc, and_self, if_true, hd.toPoly], hd⟩
  · intro h
    have hd := intToF_denotes h
    have e : x >>> n = x / 2 ^ n := by rw [Int.shiftRight_eq_div_pow]; rfl
    have hc : (0:Int) ≤ n ∧ (n:Int) < 32 := ⟨by omega, by omega⟩
    exact ⟨_, by simp only [numBinary, bitop, ia, ib, shr32, Int.toNat_natCast, hc, and_self, if_true, e, hd.toPoly], hd⟩

/-- Numbers that are not integers are below 2^24 in magnitude. -/
theorem small_of_frac {a : BitVec 32} (hi : ¬ (2 ^ 149 ∣ fval a)) : (fval a).natAbs < 2 ^ 24 * 2 ^ 149 := by
  obtain ⟨m, hm⟩ : ∃ m, fmag m = (fval a).natAbs := by
    unfold fval
    split
    · exact ⟨a.toNat - 2 ^ 31, by omega⟩
    · exact ⟨a.toNat, by omega⟩
  obtain ⟨c, k, hc, hlt⟩ := fmag_form m
  apply Nat.lt_of_not_le
  intro hge
  apply hi
  rw [← Int.dvd_natAbs, ← hm, hc] 
  rw [← hm, hc] at hge
  have hk : 149 ≤ k := by
    apply Nat.le_of_not_lt
    intro hk
    have h1 : c * 2 ^ k ≤ c * 2 ^ 149 := Nat.mul_le_mul_left _ (Nat.pow_le_pow_right (by decide) (by omega))
    have h2 : c * 2 ^ 149 < 2 ^ 24 * 2 ^ 149 := Nat.mul_lt_mul_of_pos_right hlt (Nat.pow_pos (by decide))
    exact absurd (Nat.lt_of_le_of_lt (Nat.le_trans hge h1) h2) (Nat.lt_irrefl _)
  have : (2 ^ 149 : Nat) ∣ c * 2 ^ k := Nat.dvd_trans (Nat.pow_dvd_pow 2 hk) (Nat.dvd_mul_left _ _)
  exact Int.natCast_dvd_natCast.2 this

/-- A finite number that is not an integer is rejected (reported error, not a silently truncated operand). -/
theorem C36_not_integer (powf) (op : BinOp) (hop : op ∈ [.land, .lor, .lxor, .lshift, .rshift]) (a b : BitVec 32) (i : Int)
    (hf : a.toNat % 2 ^ 31 < 0x7f800000) (hi : ¬ (2 ^ 149 ∣ f32val a)) (hb : Denotes b i) (hib : Int32 i) :
    numBinary powf op a b = .error ∧ numBinary powf op b a = .error := by
  have ib := floatToInt_int hb hib
  have ia : floatToInt a = some none := by
    unfold floatToInt fToInt
    have hfin : isFin a = true := by unfold isFin; exact decide_eq_true hf
    rw [fval_eq_spec] at hi
    have hs := small_of_frac hi
    have hab : (ftrunc a).natAbs = (fval a).natAbs / 2 ^ 149 := by
      unfold ftrunc; rw [Int.natAbs_tdiv]; rfl
    have ht : (ftrunc a).natAbs < 2 ^ 24 := by
      rw [hab]
      apply Nat.div_lt_of_lt_mul
      rw [Nat.mul_comm]; exact hs
    have h24 : Int24 (ftrunc a) := by constructor <;> omega
    have hc : isFin a = true ∧ -(2:Int) ^ (32 - 1) ≤ ftrunc a ∧ ftrunc a < 2 ^ (32 - 1) := ⟨hfin, by omega, by omega⟩
    rw [if_pos hc]
    have hd := intToF_denotes h24
    have : feq (intToF (ftrunc a)) a = false := by
      unfold feq
      apply Bool.eq_false_iff.2
      intro h
      simp only [Bool.and_eq_true, beq_iff_eq] at h
      rw [fkey_val_eq, hd.2, fval_eq_spec] at h
      apply hi
      rw [← h.2]
      exact Int.dvd_mul_left _ _
    simp [this]
  simp only [List.mem_cons, List.not_mem_nil, or_false] at hop
  rcases hop with rfl | rfl | rfl | rfl | rfl <;> simp only [numBinary, bitop, ia, ib, and_self]

/-- 2.5 is such a number. -/
example : (0x40200000#32).toNat % 2 ^ 31 < 0x7f800000 ∧ ¬ (2 ^ 149 ∣ f32val 0x40200000#32) := by
  constructor <;> decide +kernel

/-- `~` does not give the integer complement: `~0` is 2^32, not -1. -/
theorem C36_violated_lnot : ∃ (a u : BitVec 32), Denotes a 0 ∧ numLnot a = .ok u ∧ Denotes u (2 ^ 32) := by
  refine ⟨intToF 0, intToF (2 ^ 32), intToF_denotes (by unfold Int24; omega), by decide +kernel, ?_⟩
  constructor <;> decide +kernel

example : ∃ (a b : BitVec 32), Denotes a (-6) ∧ Denotes b 12345 ∧
    numBinary (fun a _ => a) .land a b = .ok (intToF 12344) :=
  ⟨intToF (-6), intToF 12345, intToF_denotes (by unfold Int24; omega), intToF_denotes (by unfold Int24; omega),
    by decide +kernel⟩

end Snek
