import Verif.Model.Poly
/-!
# C01 Tagged values never confuse numbers with objects
-/
namespace Snek

private theorem and_mask (n : Nat) (h : n < 2 ^ 32) : n &&& 0xff800000 = n / 2 ^ 23 * 2 ^ 23 := by
  apply Nat.eq_of_testBit_eq
  intro i
  rw [show (0xff800000 : Nat) = (2 ^ 9 - 1) <<< 23 from rfl, ← Nat.shiftLeft_eq, ← Nat.shiftRight_eq_div_pow]
  simp only [Nat.testBit_and, Nat.testBit_shiftLeft, Nat.testBit_two_pow_sub_one, Nat.testBit_shiftRight]
  by_cases hi : 23 ≤ i
  · have e : 23 + (i - 23) = i := by omega
    simp only [hi, decide_true, Bool.true_and, e]
    by_cases h2 : i - 23 < 9
    · simp [h2]
    · have : n.testBit i = false := Nat.testBit_lt_two_pow (Nat.lt_of_lt_of_le h (Nat.pow_le_pow_right (by decide) (by omega)))
      simp [this]
  · simp [hi]

private theorem and_offmask (n : Nat) : n &&& 0x7ffffc = n % 2 ^ 23 / 4 * 4 := by
  apply Nat.eq_of_testBit_eq
  intro i
  rw [show (0x7ffffc : Nat) = (2 ^ 21 - 1) <<< 2 from rfl, show (4:Nat) = 2 ^ 2 from rfl, ← Nat.shiftLeft_eq, ← Nat.shiftRight_eq_div_pow]
  simp only [Nat.testBit_and, Nat.testBit_shiftLeft, Nat.testBit_two_pow_sub_one, Nat.testBit_shiftRight, Nat.testBit_mod_two_pow]
  by_cases hi : 2 ≤ i
  · have e : 2 + (i - 2) = i := by omega
    have e2 : (i - 2 < 21) ↔ i < 23 := by omega
    simp only [hi, decide_true, Bool.true_and, e, e2, Bool.and_comm]
  · simp [hi]

private theorem and_three (n : Nat) : n &&& 3 = n % 4 := Nat.and_two_pow_sub_one_eq_mod n 2

theorem isFloat_iff (v : Poly) : isFloat v = true ↔ v.toNat ≤ 0xff800000 := by
  have hv := v.isLt
  simp only [isFloat, EXPONENT_MASK, NINF, Bool.or_eq_true, bne_iff_ne, ne_eq, beq_iff_eq, ← BitVec.toNat_inj,
    BitVec.toNat_and]
  rw [show (0xff800000#32).toNat = 0xff800000 from rfl, and_mask _ hv]
  omega

theorem tagType_eq (v : Poly) : tagType v =
    if v.toNat % 4 = 0 then .builtin else if v.toNat % 4 = 1 then .list else if v.toNat % 4 = 2 then .string else .func := by
  simp only [tagType, ← BitVec.toNat_inj, BitVec.toNat_and]
  rw [show (3#32).toNat = 3 from rfl, and_three]
  rfl

theorem polyToOffset_toNat (v : Poly) : (polyToOffset v).toNat = v.toNat % 2 ^ 23 / 4 * 4 := by
  simp only [polyToOffset, OFFSET_MASK, BitVec.toNat_and]
  rw [show (0x007ffffc#32).toNat = 0x7ffffc from rfl, and_offmask]

theorem PType.num_lt (t : PType) : t.num ≤ 4 := by cases t <;> decide

theorem offsetToPoly_toNat (off : BitVec 32) (t : PType) (ht : t ≠ .float) (ha : off.toNat % 4 = 0) (hb : off.toNat < 2 ^ 23) :
    (offsetToPoly off t).toNat = 0xff800000 + off.toNat + t.num := by
  have ht4 : t.num < 4 := by cases t <;> simp_all [PType.num]
  simp only [offsetToPoly, EXPONENT_MASK, BitVec.toNat_or, BitVec.toNat_ofNat]
  have e1 : t.num % 2 ^ 32 = t.num := Nat.mod_eq_of_lt (by omega)
  rw [e1]
  have h1 : 0xff800000 % 2 ^ 32 ||| off.toNat = 0xff800000 + off.toNat := by
    have := Nat.two_pow_add_eq_or_of_lt (i := 23) hb 0x1ff
    simpa using this.symm
  rw [h1]
  have h2 := Nat.two_pow_add_eq_or_of_lt (i := 2) (b := t.num) (by omega) ((0xff800000 + off.toNat) / 4)
  have h3 : 2 ^ 2 * ((0xff800000 + off.toNat) / 4) = 0xff800000 + off.toNat := by omega
  rw [h3] at h2
  omega

/-- A number that is not a NaN is stored as itself and recognised as a number; a NaN is stored as a NaN. -/
theorem C01_number_roundtrip (f : BitVec 32) :
    polyType (floatToPoly f) = .float ∧
    (isNanF f = false → polyToFloat (floatToPoly f) = f) ∧
    (isNanF f = true → isNanF (polyToFloat (floatToPoly f)) = true) := by
  have hf := f.isLt
  refine ⟨?_, ?_, ?_⟩
  · unfold polyType
    have : isFloat (floatToPoly f) = true := by
      rw [isFloat_iff]
      unfold floatToPoly
      split
      · decide
      · rename_i h
        simp only [isNanF, decide_eq_true_eq] at h
        omega
    simp [this]
  · intro h; simp [polyToFloat, floatToPoly, h]
  · intro h; simp only [polyToFloat, floatToPoly, h, if_true]; decide

/-- An object reference keeps its kind and its address. `off` is a word-aligned heap offset; 2^23 is far above the largest
pool (262144). -/
theorem C01_reference_roundtrip (off : BitVec 32) (t : PType) (ht : t = .list ∨ t = .string ∨ t = .func)
    (ha : off.toNat % 4 = 0) (hb : off.toNat < 2 ^ 23) :
    polyType (offsetToPoly off t) = t ∧ polyToOffset (offsetToPoly off t) = off := by
  have hne : t ≠ .float := by rcases ht with h | h | h <;> simp [h]
  have hn := offsetToPoly_toNat off t hne ha hb
  have ht4 : 1 ≤ t.num ∧ t.num ≤ 3 := by rcases ht with h | h | h <;> simp [h, PType.num]
  constructor
  · have : isFloat (offsetToPoly off t) = false := by
      rw [← Bool.not_eq_true, isFloat_iff]; omega
    simp only [polyType, this, tagType_eq, Bool.false_eq_true, if_false]
    rcases ht with h | h | h <;> subst h <;> simp only [PType.num] at hn
    · rw [if_neg (by omega), if_pos (by omega)]
    · rw [if_neg (by omega), if_neg (by omega), if_pos (by omega)]
    · rw [if_neg (by omega), if_neg (by omega), if_neg (by omega)]
  · apply BitVec.eq_of_toNat_eq
    rw [polyToOffset_toNat, hn]
    omega

/-- A built-in function keeps its index (ids start at 1; SNEK_BUILTIN_MAX_FUNC is far below 2^20). -/
theorem C01_builtin_roundtrip (id : Nat) (h1 : 1 ≤ id) (h2 : id < 2 ^ 20) :
    polyType (builtinIdToPoly id) = .builtin ∧ polyToBuiltinId (builtinIdToPoly id) = id ∧
    isNull (builtinIdToPoly id) = false ∧ isInvalid (builtinIdToPoly id) = false ∧ isGlobal (builtinIdToPoly id) = false := by
  have e : (BitVec.ofNat 32 (id * 4)).toNat = id * 4 := by simp only [BitVec.toNat_ofNat]; omega
  have hn := offsetToPoly_toNat (BitVec.ofNat 32 (id * 4)) .builtin (by decide) (by omega) (by omega)
  simp only [e, PType.num] at hn
  have hnf : isFloat (builtinIdToPoly id) = false := by
    rw [← Bool.not_eq_true, isFloat_iff]; unfold builtinIdToPoly; omega
  refine ⟨?_, ?_, ?_, ?_, ?_⟩
  · simp only [polyType, hnf, tagType_eq, Bool.false_eq_true, if_false]
    unfold builtinIdToPoly
    rw [if_pos (by omega)]
  · simp only [polyToBuiltinId, polyToOffset_toNat]; unfold builtinIdToPoly; omega
  all_goals
    simp only [isNull, isInvalid, isGlobal, NULL_U, INVALID_U, GLOBAL_U, beq_eq_false_iff_ne, ne_eq, ← BitVec.toNat_inj]
    unfold builtinIdToPoly
    rw [hn]
    simp only [BitVec.toNat_ofNat]
    omega

/-- None and the two internal markers are pairwise different, are not numbers, and differ from every stored number and
every list, string or function reference. -/
theorem C01_markers_distinct (f off : BitVec 32) (t : PType) (ht : t = .list ∨ t = .string ∨ t = .func)
    (ha : off.toNat % 4 = 0) (hb : off.toNat < 2 ^ 23) (m : Poly) (hm : m = NULL_U ∨ m = GLOBAL_U ∨ m = INVALID_U) :
    m ≠ floatToPoly f ∧ m ≠ offsetToPoly off t ∧ floatToPoly f ≠ offsetToPoly off t ∧
    NULL_U ≠ GLOBAL_U ∧ NULL_U ≠ INVALID_U ∧ GLOBAL_U ≠ INVALID_U := by
  have h1 := (C01_number_roundtrip f).1
  have h2 := (C01_reference_roundtrip off t ht ha hb).1
  refine ⟨?_, ?_, ?_, by decide, by decide, by decide⟩
  · intro h; rw [← h] at h1; rcases hm with r | r | r <;> subst r <;> revert h1 <;> decide
  · intro h; rw [← h] at h2; rcases hm with r | r | r <;> subst r <;> rcases ht with r | r | r <;> subst r <;> revert h2 <;> decide
  · intro h; rw [h, h2] at h1; subst h1; simp at ht

/-- Two references are the same word exactly when kind and address agree. -/
theorem C01_reference_injective (o1 o2 : BitVec 32) (t1 t2 : PType) (h1 : t1 = .list ∨ t1 = .string ∨ t1 = .func)
    (h2 : t2 = .list ∨ t2 = .string ∨ t2 = .func) (a1 : o1.toNat % 4 = 0) (a2 : o2.toNat % 4 = 0)
    (b1 : o1.toNat < 2 ^ 23) (b2 : o2.toNat < 2 ^ 23) :
    offsetToPoly o1 t1 = offsetToPoly o2 t2 ↔ o1 = o2 ∧ t1 = t2 := by
  have r1 := C01_reference_roundtrip o1 t1 h1 a1 b1
  have r2 := C01_reference_roundtrip o2 t2 h2 a2 b2
  constructor
  · intro h; rw [h] at r1
    exact ⟨r1.2.symm.trans r2.2, r1.1.symm.trans r2.1⟩
  · rintro ⟨rfl, rfl⟩; rfl

/-- -infinity, the one number inside the tag region, is a number; the word just above it is not. -/
example : polyType 0xff800000#32 = .float ∧ polyType 0xff800001#32 = .list := by decide
example : polyType (offsetToPoly 0x3fffc#32 .string) = .string ∧ polyToOffset (offsetToPoly 0x3fffc#32 .string) = 0x3fffc#32 := by decide
example : polyToBuiltinId (builtinIdToPoly 37) = 37 := by decide

end Snek
