import Verif.Proofs.Round
import Verif.Model.Number
/-!
# C59 Arithmetic is correctly rounded

`numBinary` is the model of the operators on two numbers (snek-exec.c:325-371). `Spec.f32val u` is the value of `u` in units of
2^-149; `Spec.Rounded u n d`: `u` is the rational `n / d` (same units) rounded to the nearest number, ties to even, infinite when
beyond the largest one. That the machine's `float` operations are the IEEE ones (Model/F32) is trusted; that the model of them rounds
correctly is proved here.
-/
namespace Snek
open Spec

/-- Finite numbers. -/
abbrev FinNum (u : BitVec 32) : Prop := u.toNat % 2 ^ 31 < 0x7f800000

theorem fin_flags {u : BitVec 32} (h : FinNum u) : isNanF u = false ∧ isInfF u = false ∧ isFin u = true := by
  refine ⟨?_, ?_, decide_eq_true h⟩
  · have : isFin u = true := decide_eq_true h
    unfold isFin at this
    unfold isNanF
    simp only [FinNum] at h
    apply Bool.eq_false_iff.2
    intro hn
    simp only [decide_eq_true_eq] at hn
    omega
  · unfold isInfF
    apply decide_eq_false
    simp only [FinNum] at h
    omega

theorem rounded_toPoly {u : BitVec 32} {n : Int} {d : Nat} (h : Rounded u n d) : floatToPoly u = u := by
  unfold floatToPoly
  by_cases hc : 2 * n.natAbs < ((2 ^ 24 - 1) * 2 ^ 253 + 2 ^ 277) * d
  · rw [(fin_flags (h.1 hc).1).1]; rfl
  · rw [h.2 (by omega)]; split <;> decide

theorem sign_mul (A B : Int) (fa fb : Bool) (ha : fa = decide (A < 0) ∨ A = 0) (hb : fb = decide (B < 0) ∨ B = 0) (h0 : A * B ≠ 0) :
    (if (fa != fb) = true then -((A.natAbs * B.natAbs : Nat) : Int) else (A.natAbs * B.natAbs : Nat)) = A * B := by
  have hA : A ≠ 0 := by rintro rfl; simp at h0
  have hB : B ≠ 0 := by rintro rfl; simp at h0
  have ha := ha.resolve_right hA
  have hb := hb.resolve_right hB
  subst ha hb
  rw [Int.natCast_mul]
  have t1 : (true != true) = false := rfl
  have t2 : (true != false) = true := rfl
  have t3 : (false != true) = true := rfl
  have t4 : (false != false) = false := rfl
  by_cases h1 : A < 0 <;> by_cases h2 : B < 0 <;>
    simp only [h1, h2, decide_true, decide_false, t1, t2, t3, t4, Bool.false_eq_true, if_false, if_true]
  · rw [show (A.natAbs : Int) = -A by omega, show (B.natAbs : Int) = -B by omega, Int.neg_mul_neg]
  · rw [show (A.natAbs : Int) = -A by omega, show (B.natAbs : Int) = B by omega, Int.neg_mul, Int.neg_neg]
  · rw [show (A.natAbs : Int) = A by omega, show (B.natAbs : Int) = -B by omega, Int.mul_neg, Int.neg_neg]
  · rw [show (A.natAbs : Int) = A by omega, show (B.natAbs : Int) = B by omega]

theorem fneg_val (u : BitVec 32) : fneg u = decide (fval u < 0) ∨ fval u = 0 := by
  unfold fval
  cases h : fneg u
  · left; simp
  · simp only [if_true]
    by_cases h0 : fmag (u.toNat - 2 ^ 31) = 0
    · right; omega
    · left; symm; apply decide_eq_true; omega

theorem fadd_rounded (a b : BitVec 32) (ha : FinNum a) (hb : FinNum b) : Rounded (fadd a b) (f32val a + f32val b) 1 := by
  obtain ⟨a1, a2, a3⟩ := fin_flags ha
  obtain ⟨b1, b2, b3⟩ := fin_flags hb
  unfold fadd
  simp only [a1, b1, a2, b2, Bool.or_self, Bool.false_eq_true, if_false, fval_eq_spec]
  split
  · rename_i h; rw [h]; exact rounded_zero _ _ (by decide)
  · rename_i h; exact rounded_fround _ h

theorem fneg1_fin {a : BitVec 32} (ha : FinNum a) : FinNum (fneg1 a) := by
  unfold FinNum fneg1
  rw [(fmk_fin _ _ ha).1]
  exact ha

theorem fdiv_rounded (a b : BitVec 32) (ha : FinNum a) (hb : FinNum b) (hb0 : fval b ≠ 0) :
    Rounded (fdiv a b) (f32val a * 2 ^ 149 * (f32val b).sign) (f32val b).natAbs := by
  obtain ⟨a1, a2, a3⟩ := fin_flags ha
  obtain ⟨b1, b2, b3⟩ := fin_flags hb
  unfold fdiv
  simp only [a1, b1, a2, b2, Bool.or_self, Bool.false_eq_true, if_false, fval_eq_spec, if_neg hb0]
  have hd : 0 < (fval b).natAbs := by omega
  by_cases h0 : fval a = 0
  · rw [h0]
    simp only [Int.natAbs_zero, Nat.zero_mul, roundMag_zero, Int.zero_mul]
    exact rounded_zero _ _ hd
  · have hs0 : (fval b).sign ≠ 0 := fun h => hb0 (Int.sign_eq_zero_iff_zero.1 h)
    have hbs : fneg b = decide ((fval b).sign < 0) ∨ (fval b).sign = 0 := by
      left
      rw [(fneg_val b).resolve_right hb0]
      by_cases hn : fval b < 0
      · rw [Int.sign_eq_neg_one_of_neg hn]; simp [hn]
      · rw [Int.sign_eq_one_of_pos (by omega)]; simp [hn]
    have hs1 : (fval b).sign.natAbs = 1 := by rw [Int.natAbs_sign]; simp [hb0]
    have has : fneg a = decide (fval a * 2 ^ 149 < 0) ∨ fval a * 2 ^ 149 = 0 := by
      left
      rw [(fneg_val a).resolve_right h0]
      exact decide_eq_decide.2 (scale_neg _).symm
    have hA0 : fval a * 2 ^ 149 ≠ 0 := fun h => h0 ((scale_zero _).1 h)
    have := rounded_fmk (fneg a != fneg b) ((fval a).natAbs * 2 ^ 149) (fval b).natAbs hd
      (.inl (Nat.mul_pos (by omega) (Nat.pow_pos (by decide))))
    have e := sign_mul (fval a * 2 ^ 149) (fval b).sign _ _ has hbs (Int.mul_ne_zero hA0 hs0)
    rw [hs1, Nat.mul_one, natAbs_scale] at e
    rw [e] at this
    exact this

/-- `a + b`, `a - b`, `a * b` and, for `b` not zero, `a / b` are the exact results correctly rounded, for all finite numbers. -/
theorem C59_rounded (powf) (a b : BitVec 32) (ha : FinNum a) (hb : FinNum b) :
    (∃ u, numBinary powf .plus a b = .ok u ∧ Rounded u (f32val a + f32val b) 1) ∧
    (∃ u, numBinary powf .minus a b = .ok u ∧ Rounded u (f32val a - f32val b) 1) ∧
    (∃ u, numBinary powf .times a b = .ok u ∧ Rounded u (f32val a * f32val b) (2 ^ 149)) ∧
    (f32val b ≠ 0 → ∃ u, numBinary powf .divide a b = .ok u ∧
      Rounded u (f32val a * 2 ^ 149 * (f32val b).sign) (f32val b).natAbs) := by
  obtain ⟨a1, a2, a3⟩ := fin_flags ha
  obtain ⟨b1, b2, b3⟩ := fin_flags hb
  refine ⟨?_, ?_, ?_, ?_⟩
  · have h := fadd_rounded a b ha hb
    exact ⟨_, by simp only [numBinary, rounded_toPoly h], h⟩
  · have h := fadd_rounded a (fneg1 b) ha (fneg1_fin hb)
    rw [fval_eq_spec (fneg1 b), fval_fneg1, ← fval_eq_spec b] at h
    exact ⟨_, by simp only [numBinary, fsub, rounded_toPoly h], h⟩
  · have h : Rounded (fmul a b) (f32val a * f32val b) (2 ^ 149) := by
      unfold fmul
      simp only [a1, b1, a2, b2, Bool.or_self, Bool.false_eq_true, if_false, fval_eq_spec]
      by_cases h0 : fval a * fval b = 0
      · have hz : (fval a).natAbs * (fval b).natAbs = 0 := by
          rw [← Int.natAbs_mul, h0]; rfl
        rw [hz, roundMag_zero, h0]
        exact rounded_zero _ _ (by decide)
      · have := rounded_fmk (fneg a != fneg b) ((fval a).natAbs * (fval b).natAbs) (2 ^ 149) (by decide)
          (.inl (by rw [← Int.natAbs_mul]; omega))
        rw [sign_mul _ _ _ _ (fneg_val a) (fneg_val b) h0] at this
        exact this
    exact ⟨_, by simp only [numBinary, rounded_toPoly h], h⟩
  · intro hb0
    rw [fval_eq_spec] at hb0
    have h := fdiv_rounded a b ha hb hb0
    exact ⟨_, by simp only [numBinary, rounded_toPoly h], h⟩

/-- Unary minus is exact. -/
theorem C59_neg (a : BitVec 32) (ha : FinNum a) : FinNum (numUminus a) ∧ f32val (numUminus a) = -f32val a := by
  have h := fneg1_fin ha
  have e : numUminus a = fneg1 a := by unfold numUminus floatToPoly; rw [(fin_flags h).1]; rfl
  rw [e, fval_eq_spec, fval_eq_spec]
  exact ⟨h, fval_fneg1 a⟩

/-- An exact zero sum or difference is +0, except -0 + -0 and -0 - 0, which are -0. -/
theorem C59_zero_sign (powf) (a b : BitVec 32) (ha : FinNum a) (hb : FinNum b) :
    (f32val a + f32val b = 0 → numBinary powf .plus a b = .ok (if a.msb && b.msb then 0x80000000 else 0)) ∧
    (f32val a - f32val b = 0 → numBinary powf .minus a b = .ok (if a.msb && !b.msb then 0x80000000 else 0)) := by
  have msb : ∀ u : BitVec 32, fneg u = u.msb := fun u => by rw [BitVec.msb_eq_decide]; rfl
  have key : ∀ a b : BitVec 32, FinNum a → FinNum b → f32val a + f32val b = 0 → fadd a b = if a.msb && b.msb then 0x80000000 else 0 := by
    intro a b ha hb h
    rw [fval_eq_spec, fval_eq_spec] at h
    obtain ⟨a1, a2, a3⟩ := fin_flags ha
    obtain ⟨b1, b2, b3⟩ := fin_flags hb
    unfold fadd
    simp only [a1, b1, a2, b2, Bool.or_self, Bool.false_eq_true, if_false, if_pos h, msb]
    cases a.msb && b.msb <;> decide
  have poly : ∀ c : Bool, floatToPoly (if c then 0x80000000 else 0) = if c then 0x80000000 else 0 := by decide
  have hm : (fneg1 b).msb = !b.msb := by
    rw [← msb, ← msb]; unfold fneg1 fmk fneg
    rw [BitVec.toNat_ofNat]
    have := b.isLt
    by_cases hb : 2 ^ 31 ≤ b.toNat <;> simp [hb] <;> omega
  refine ⟨fun h => ?_, fun h => ?_⟩
  · simp only [numBinary]; rw [key a b ha hb h, poly]
  · simp only [numBinary, fsub]
    rw [key a (fneg1 b) ha (fneg1_fin hb) (by rw [fval_eq_spec (fneg1 b), fval_fneg1, ← fval_eq_spec b]; omega), hm, poly]

/-! 1 / 3, 16777216 + 1 (a tie) and 1e30 * 1e30 (overflow). -/

example : numBinary (fun a _ => a) .divide 0x3f800000 0x40400000 = .ok 0x3eaaaaab ∧ FinNum 0x3f800000#32 ∧ FinNum 0x40400000#32 := by decide +kernel
example : numBinary (fun a _ => a) .plus 0x4b800000 0x3f800000 = .ok 0x4b800000 := by decide +kernel
example : numBinary (fun a _ => a) .times 0x7149f2ca 0x7149f2ca = .ok 0x7f800000 := by decide +kernel

end Snek
