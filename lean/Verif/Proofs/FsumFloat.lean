import Verif.Proofs.TwoSum
import Verif.Proofs.Cmp
import Verif.Model.Fsum
/-! binary32 addition in units of 2^-149. -/
set_option exponentiation.threshold 400
namespace Snek.Fsum
open Spec

theorem rep_mag {m : Nat} (h : m < 0x7f800000) : Rep (fmag m) := by
  unfold fmag
  split
  · exact ⟨m % 2 ^ 23, 0, by omega, by omega, by rw [Int.natAbs_natCast]; omega⟩
  · refine ⟨2 ^ 23 + m % 2 ^ 23, m / 2 ^ 23 - 1, by omega, by omega, ?_⟩
    rw [Int.natAbs_natCast]

theorem rep_fin {u : BitVec 32} (h : isFin u = true) : Rep (fval u) := by
  have h1 : u.toNat % 2 ^ 31 < 0x7f800000 := by simpa [isFin] using h
  rcases fval_mag u with e | e <;> rw [e]
  · exact rep_mag h1
  · exact (rep_mag h1).neg

theorem enc {m e : Nat} : e ≤ 253 → m < 2 ^ 24 → ∃ R, R < 0x7f800000 ∧ fmag R = m * 2 ^ e := by
  induction e generalizing m with
  | zero =>
    intro _ hm
    exact ⟨0 * 2 ^ 23 + m, by omega, fmag_enc 0 m hm (.inl rfl)⟩
  | succ e ih =>
    intro he hm
    by_cases h : m < 2 ^ 23
    · obtain ⟨R, a, b⟩ := ih (m := 2 * m) (by omega) (by omega)
      exact ⟨R, a, by rw [b, Nat.pow_succ]; ac_rfl⟩
    · exact ⟨(e + 1) * 2 ^ 23 + m, by omega, fmag_enc (e + 1) m hm (.inr (by omega))⟩

theorem fin_rep {n : Int} (h : Rep n) : ∃ u, isFin u = true ∧ fval u = n := by
  obtain ⟨m, e, he, hm, hn⟩ := h
  obtain ⟨R, hR, hf⟩ := enc he hm
  refine ⟨fmk (decide (n < 0)) R, isFin_fmk _ _ hR, ?_⟩
  rw [fval_fmk _ _ (by omega), hf]
  by_cases h0 : n < 0
  · simp only [h0, decide_true, if_true]; omega
  · simp only [h0, decide_false, Bool.false_eq_true, if_false]; omega

theorem near_of_nearest {u : BitVec 32} {s : Int} (h : Nearest u s 1) : ∀ v, Rep v → (fval u - s).natAbs ≤ (v - s).natAbs := by
  intro v hv
  obtain ⟨w, hw, rfl⟩ := fin_rep hv
  have := (h.2 w (by simpa [isFin] using hw)).1
  rw [fval_eq_spec, fval_eq_spec] at this
  simpa using this

theorem isFin_false {u : BitVec 32} : isFin u = false ↔ isNanF u = true ∨ isInfF u = true := by
  unfold isFin isNanF isInfF
  simp only [decide_eq_true_eq, decide_eq_false_iff_not]
  omega

theorem fin_parts {u : BitVec 32} (h : isFin u = true) : isNanF u = false ∧ isInfF u = false := by
  unfold isFin at h
  unfold isNanF isInfF
  simp only [decide_eq_true_eq, decide_eq_false_iff_not] at *
  omega

theorem fadd_fin {a b : BitVec 32} (ha : isFin a = true) (hb : isFin b = true) :
    fadd a b = if fval a + fval b = 0 then fmk (fneg a && fneg b) 0 else fround (fval a + fval b) := by
  unfold fadd
  rw [(fin_parts ha).1, (fin_parts hb).1, (fin_parts ha).2, (fin_parts hb).2]
  simp only [Bool.or_self, Bool.false_eq_true, if_false]

theorem fmag_zero : fmag 0 = 0 := by decide

theorem rep_zero : Rep 0 := ⟨0, 0, by omega, by omega, by omega⟩

theorem grid_zero : Grid 0 0 0 := by
  refine ⟨.inl rfl, by decide, by omega, ⟨0, by simp⟩, by decide, fun h => absurd h (by decide), rep_zero, fun v _ => by omega⟩

/-- Addition of finite numbers, when the result is finite. -/
theorem grid_fadd {a b : BitVec 32} (ha : isFin a = true) (hb : isFin b = true) (hr : isFin (fadd a b) = true) :
    ∃ e, Grid (fval a + fval b) (fval (fadd a b)) e := by
  have hE := fadd_fin ha hb
  by_cases h0 : fval a + fval b = 0
  · rw [if_pos h0] at hE
    rw [hE, fval_fmk _ _ (by decide), fmag_zero, h0]
    have e : (if (fneg a && fneg b) = true then -((0 : Nat) : Int) else ((0 : Nat) : Int)) = 0 := by split <;> rfl
    rw [e]
    exact ⟨0, grid_zero⟩
  · rw [if_neg h0] at hE
    generalize fval a + fval b = s at *
    have hrep := rep_fin hr
    have hnear : ∀ v, Rep v → (fval (fadd a b) - s).natAbs ≤ (v - s).natAbs := by
      obtain ⟨h1, h2⟩ := rounded_fround s h0
      rw [hE] at hr ⊢
      refine near_of_nearest (h1 ?_)
      apply Decidable.byContradiction
      intro hc
      rw [h2 (by omega)] at hr
      revert hr
      split <;> decide
    rw [hE] at hr hrep hnear ⊢
    clear hE
    unfold fround at *
    have hR : roundMag s.natAbs 1 < 0x7f800000 := by
      have h1 : roundMag s.natAbs 1 ≤ 0x7f800000 := by rw [roundMag_eq]; exact Nat.min_le_right _ _
      have h2 : (fmk (decide (s < 0)) (roundMag s.natAbs 1)).toNat % 2 ^ 31 < 0x7f800000 := by simpa [isFin] using hr
      rw [fmk_toNat _ _ (by omega)] at h2
      revert h2
      split <;> intro h2 <;> omega
    have ho : rexp s.natAbs 1 * 2 ^ 23 + rne s.natAbs (1 * 2 ^ rexp s.natAbs 1) < 0x7f800000 := by
      rw [roundMag_eq] at hR; omega
    have hf := fmag_roundMag s.natAbs 1 (by decide) (by omega)
    obtain ⟨g1, g2⟩ := rexp_spec s.natAbs 1 (by decide)
    obtain ⟨g3, g4⟩ := rne_range s.natAbs 1 (by decide)
    have hv : fval (fmk (decide (s < 0)) (roundMag s.natAbs 1)) =
        if s < 0 then -((rne s.natAbs (2 ^ rexp s.natAbs 1) * 2 ^ rexp s.natAbs 1 : Nat) : Int)
        else ((rne s.natAbs (2 ^ rexp s.natAbs 1) * 2 ^ rexp s.natAbs 1 : Nat) : Int) := by
      rw [fval_fmk _ _ (by omega), hf]
      simp only [decide_eq_true_eq, Nat.one_mul]
    rw [Nat.one_mul] at *
    have herr := rne_err s.natAbs (2 ^ rexp s.natAbs 1) (pow_pos2 _)
    have heven : 2 * (s.natAbs % 2 ^ rexp s.natAbs 1) = 2 ^ rexp s.natAbs 1 → rne s.natAbs (2 ^ rexp s.natAbs 1) % 2 = 0 := by
      intro h
      unfold rne
      split <;> omega
    have hdm := Nat.div_add_mod s.natAbs (2 ^ rexp s.natAbs 1)
    have hrne : rne s.natAbs (2 ^ rexp s.natAbs 1) = s.natAbs / 2 ^ rexp s.natAbs 1 ∨
        rne s.natAbs (2 ^ rexp s.natAbs 1) = s.natAbs / 2 ^ rexp s.natAbs 1 + 1 := by
      unfold rne
      split <;> simp
    generalize rexp s.natAbs 1 = e at *
    have hp := pow_pos2 e
    refine ⟨e, ?_, g2, ?_, ?_, ?_, ?_, hrep, hnear⟩
    · exact g1
    · rcases g3 with h | h <;> omega
    · rw [hv]
      refine abs_dvd (m := rne s.natAbs (2 ^ e)) ?_
      split <;> simp only [Int.natAbs_neg, Int.natAbs_natCast]
    · rw [hv, Nat.mul_comm]
      have hml := Nat.mul_comm (rne s.natAbs (2 ^ e)) (2 ^ e)
      generalize rne s.natAbs (2 ^ e) * 2 ^ e = Q at *
      split <;> omega
    · intro ht
      have hmt : 2 * (s.natAbs % 2 ^ e) = 2 ^ e := by
        rw [hv] at ht
        rcases hrne with h | h
        · rw [h, Nat.mul_comm (s.natAbs / 2 ^ e)] at ht
          generalize 2 ^ e * (s.natAbs / 2 ^ e) = Q at *
          revert ht; split <;> omega
        · rw [h, Nat.add_mul, Nat.mul_comm (s.natAbs / 2 ^ e)] at ht
          generalize 2 ^ e * (s.natAbs / 2 ^ e) = Q at *
          revert ht; split <;> omega
      have := heven hmt
      obtain ⟨j, hj⟩ : ∃ j, rne s.natAbs (2 ^ e) = 2 * j := ⟨rne s.natAbs (2 ^ e) / 2, by omega⟩
      rw [hv]
      refine abs_dvd (m := j) ?_
      rw [hj, Nat.pow_succ]
      have : 2 * j * 2 ^ e = j * (2 ^ e * 2) := by ac_rfl
      split <;> simp only [Int.natAbs_neg, Int.natAbs_natCast] <;> omega

theorem rep_small {s : Int} (h : Rep s) : 2 * s.natAbs < ((2 ^ 24 - 1) * 2 ^ 253 + 2 ^ 277) * 1 := by
  obtain ⟨m, e, he, hm, hs⟩ := h
  have h1 : m * 2 ^ e ≤ (2 ^ 24 - 1) * 2 ^ 253 :=
    Nat.mul_le_mul (by omega) (Nat.pow_le_pow_right (by decide) he)
  have h2 : (2 ^ 24 - 1) * 2 ^ 253 < 2 ^ 277 := by decide +kernel
  rw [hs]
  generalize m * 2 ^ e = A at *
  generalize (2 ^ 24 - 1) * 2 ^ 253 = B at *
  generalize 2 ^ 277 = C at *
  omega

theorem exact_of_nearest {u : BitVec 32} {s : Int} (h : Nearest u s 1) (hs : Rep s) : isFin u = true ∧ fval u = s := by
  refine ⟨by simpa [isFin] using h.1, ?_⟩
  have := near_of_nearest h s hs
  omega

/-- A sum that is a number is computed exactly. -/
theorem fadd_exact {a b : BitVec 32} (ha : isFin a = true) (hb : isFin b = true) (h : Rep (fval a + fval b)) :
    isFin (fadd a b) = true ∧ fval (fadd a b) = fval a + fval b := by
  rw [fadd_fin ha hb]
  split
  · rename_i h0
    rw [h0, fval_fmk _ _ (by decide), fmag_zero]
    exact ⟨isFin_fmk _ _ (by decide), by split <;> rfl⟩
  · rename_i h0
    exact exact_of_nearest ((rounded_fround _ h0).1 (rep_small h)) h

theorem fneg1_fin {a : BitVec 32} (ha : isFin a = true) : isFin (fneg1 a) = true ∧ fval (fneg1 a) = - fval a := by
  unfold fneg1
  have h : a.toNat % 2 ^ 31 < 0x7f800000 := by simpa [isFin] using ha
  refine ⟨isFin_fmk _ _ h, ?_⟩
  rw [fval_fmk _ _ (by omega)]
  have hl := a.isLt
  unfold fval fneg
  simp only [decide_eq_true_eq, Bool.not_eq_true', decide_eq_false_iff_not]
  by_cases hs : 2 ^ 31 ≤ a.toNat
  · have : a.toNat % 2 ^ 31 = a.toNat - 2 ^ 31 := by omega
    rw [if_neg (by omega), if_pos hs, this]; omega
  · have : a.toNat % 2 ^ 31 = a.toNat := by omega
    rw [if_pos (by omega), if_neg hs, this]

theorem fneg1_fin' {a : BitVec 32} : isFin (fneg1 a) = isFin a := by
  unfold fneg1 isFin
  rw [fmk_toNat _ _ (by omega)]
  have : (a.toNat % 2 ^ 31 + if (!fneg a) = true then 2 ^ 31 else 0) % 2 ^ 31 = a.toNat % 2 ^ 31 := by split <;> omega
  rw [this]

theorem fsub_exact {a b : BitVec 32} (ha : isFin a = true) (hb : isFin b = true) (h : Rep (fval a - fval b)) :
    isFin (fsub a b) = true ∧ fval (fsub a b) = fval a - fval b := by
  obtain ⟨h1, h2⟩ := fneg1_fin hb
  unfold fsub
  have := fadd_exact ha h1 (by rw [h2]; exact h)
  rw [h2] at this
  exact this

/-- Infinities and NaNs stay. -/
theorem fadd_bad {a b : BitVec 32} (h : isFin a = false ∨ isFin b = false) : isFin (fadd a b) = false := by
  unfold fadd
  have hn : isFin NAN_U = false := by decide
  split
  · exact hn
  · rename_i h1
    simp only [Bool.or_eq_true, not_or, Bool.not_eq_true] at h1
    split
    · rename_i h2
      split
      · exact hn
      · exact isFin_false.2 (.inr h2)
    · split
      · rename_i h2
        exact isFin_false.2 (.inr h2)
      · rename_i h2 h3
        rcases h with h | h <;> rcases isFin_false.1 h with h | h <;> simp_all

theorem feq_zero {a : BitVec 32} (ha : isFin a = true) : feq a 0 = true ↔ fval a = 0 := by
  unfold feq
  rw [(fin_parts ha).1, show isNanF 0 = false by decide]
  simp only [Bool.not_false, Bool.true_and, beq_iff_eq]
  rw [fkey_val_eq, fval_eq_spec, fval_eq_spec, show fval 0 = 0 by decide]

theorem feq_val {a b : BitVec 32} (ha : isFin a = true) (hb : isFin b = true) : feq a b = true ↔ fval a = fval b := by
  unfold feq
  rw [(fin_parts ha).1, (fin_parts hb).1]
  simp only [Bool.not_false, Bool.true_and, beq_iff_eq]
  rw [fkey_val_eq, fval_eq_spec, fval_eq_spec]

theorem feq_bad {a b : BitVec 32} (ha : isFin a = true) (hb : isFin b = false) : feq a b = false := by
  have ha' : a.toNat % 2 ^ 31 < 0x7f800000 := by simpa [isFin] using ha
  have hb' : ¬ b.toNat % 2 ^ 31 < 0x7f800000 := by simpa [isFin] using hb
  have := a.isLt
  have := b.isLt
  unfold feq
  rw [(fin_parts ha).1]
  have : (fkey a == fkey b) = false := by
    simp only [beq_eq_false_iff_ne, ne_eq]
    unfold fkey
    split <;> split <;> omega
  rw [this]
  simp

theorem feq_zero_bad {a : BitVec 32} (ha : isFin a = false) : feq a 0 = false := by
  have h := feq_bad (a := 0) (b := a) (by decide) ha
  unfold feq at *
  rw [Bool.and_comm (!isNanF a), show (fkey a == fkey 0) = (fkey 0 == fkey a) from Bool.beq_comm ..]
  exact h

theorem fltF_val {a b : BitVec 32} (ha : isFin a = true) (hb : isFin b = true) : fltF a b = true ↔ fval a < fval b := by
  unfold fltF
  rw [(fin_parts ha).1, (fin_parts hb).1]
  simp only [Bool.not_false, Bool.true_and, decide_eq_true_eq]
  rw [fkey_val, fval_eq_spec, fval_eq_spec]

theorem fabs_fin {a : BitVec 32} (ha : isFin a = true) : isFin (fabs a) = true ∧ fval (fabs a) = (fval a).natAbs := by
  unfold fabs
  have h : a.toNat % 2 ^ 31 < 0x7f800000 := by simpa [isFin] using ha
  refine ⟨isFin_fmk _ _ h, ?_⟩
  rw [fval_fmk _ _ (by omega)]
  rcases fval_mag a with e | e <;> rw [e] <;> simp

theorem poly_fin {a : BitVec 32} (ha : isFin a = true) : floatToPoly a = a := by
  unfold floatToPoly
  rw [(fin_parts ha).1]
  rfl

theorem poly_fin' {a : BitVec 32} : isFin (floatToPoly a) = isFin a := by
  unfold floatToPoly
  split
  · rename_i h
    rw [isFin_false.2 (.inl h)]
    decide
  · rfl

/-- Doubling. -/
theorem fmul_two {a : BitVec 32} (ha : isFin a = true) (h : Rep (2 * fval a)) :
    isFin (fmul a (intToF 2)) = true ∧ fval (fmul a (intToF 2)) = 2 * fval a := by
  have h2 : intToF 2 = 0x40000000#32 := by decide +kernel
  have hm : (fval (intToF 2)).natAbs = 2 * 2 ^ 149 := by rw [h2]; decide +kernel
  have hf : isFin (intToF 2) = true := by rw [h2]; decide
  have hn : fneg (intToF 2) = false := by rw [h2]; decide
  have hE : fmul a (intToF 2) = fmk (fneg a) (roundMag (2 * (fval a).natAbs * 2 ^ 149) (2 ^ 149)) := by
    unfold fmul
    rw [(fin_parts ha).1, (fin_parts hf).1, (fin_parts ha).2, (fin_parts hf).2, hm, hn]
    simp only [Bool.or_self, Bool.false_eq_true, if_false]
    rw [show (fneg a != false) = fneg a by cases fneg a <;> rfl,
      show (fval a).natAbs * (2 * 2 ^ 149) = 2 * (fval a).natAbs * 2 ^ 149 by rw [← Nat.mul_assoc, Nat.mul_comm _ 2]]
  have hs := rep_small h
  rw [show (2 * fval a).natAbs = 2 * (fval a).natAbs by omega] at hs
  have hov := (roundMag_over (2 * (fval a).natAbs * 2 ^ 149) (2 ^ 149) (by decide)).1 (by
    rw [← Nat.mul_assoc]
    exact Nat.mul_lt_mul_of_pos_right (by rw [Nat.mul_one] at hs; exact hs) (by decide))
  have hN := nearest_fmk (fneg a) _ (2 ^ 149) (by decide) hov
  rw [← hE] at hN
  refine ⟨by simpa [isFin] using hN.1, ?_⟩
  obtain ⟨w, hw, hv⟩ := fin_rep h
  have := (hN.2 w (by simpa [isFin] using hw)).1
  rw [fval_eq_spec, fval_eq_spec, hv] at this
  have hsg : (if fneg a = true then -((2 * (fval a).natAbs * 2 ^ 149 : Nat) : Int) else ((2 * (fval a).natAbs * 2 ^ 149 : Nat) : Int)) =
      2 * fval a * ((2 ^ 149 : Nat) : Int) := by
    unfold fval
    split
    · rw [Int.natAbs_neg, Int.natAbs_natCast, Int.natCast_mul, Int.natCast_mul]
      rw [Int.mul_neg, Int.neg_mul]; rfl
    · rw [Int.natAbs_natCast, Int.natCast_mul, Int.natCast_mul]; rfl
  rw [hsg] at this
  rw [Int.sub_self, Int.natAbs_zero] at this
  have h3 : fval (fmul a (intToF 2)) * ((2 ^ 149 : Nat) : Int) = 2 * fval a * ((2 ^ 149 : Nat) : Int) := by omega
  exact Int.eq_of_mul_eq_mul_right (by decide) h3

end Snek.Fsum
