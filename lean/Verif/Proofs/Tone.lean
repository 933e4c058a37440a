import Verif.Spec.Tone
import Verif.Proofs.TimeFloat
/-! # tone: the conversions of frequencies -/
namespace Snek.Tone
open Snek.Random (fToU32)

theorem fdiv_pos {a b : BitVec 32} {x y : Nat} (ha : Pos a x) (hb : Pos b y) (hy : 0 < y) : fdiv a b = fmk false (roundMag (x * 2 ^ 149) y) := by
  obtain ⟨a1, a2, a3, a4⟩ := pos_flags ha
  obtain ⟨b1, b2, b3, b4⟩ := pos_flags hb
  unfold fdiv
  rw [a1, b1, a2, b2, a3, b3, a4, b4, if_neg (by simp), if_neg (by simp), if_neg (by simp), if_neg (by omega)]
  simp only [Int.natAbs_natCast]
  rfl

theorem u32_pos {f : BitVec 32} {r : Nat} (h : Pos f r) (hr : r < 2 ^ 32 * 2 ^ 149) : fToU32 f = some (r / 2 ^ 149) := by
  have ht : ftrunc f = ((r / 2 ^ 149 : Nat) : Int) := by
    unfold ftrunc
    rw [(pos_flags h).2.2.2]
    exact tdiv_cast _ (2 ^ 149)
  have hb : r / 2 ^ 149 < 2 ^ 32 := (Nat.div_lt_iff_lt_mul (by decide +kernel)).2 hr
  have hf : isFin f = true := by
    unfold isFin
    have := h.1
    exact decide_eq_true (by omega)
  unfold fToU32
  rw [ht, hf]
  generalize r / 2 ^ 149 = v at *
  rw [if_pos ⟨rfl, by omega, by omega⟩]
  simp

theorem quot_aux {q N r U v : Nat} (hU : 0 < U) (h : Within 1 q (N * U) r) (hv : v = q / U) :
    16777216 * (v * r) ≤ 16777217 * N ∧ 16777215 * N < 16777216 * ((v + 1) * r) ∨ r = 0 := by
  rcases Nat.eq_zero_or_pos r with h0 | h0
  · exact .inr h0
  left
  obtain ⟨a, b⟩ := h
  simp only [Nat.pow_one] at a b
  have h1 : v * U ≤ q := by rw [hv]; exact Nat.div_mul_le_self q U
  have h2 : q < (v + 1) * U := by rw [hv, Nat.mul_comm]; exact Nat.lt_mul_div_succ q hU
  have h1' : v * U * r ≤ q * r := Nat.mul_le_mul_right _ h1
  have h2' : q * r < (v + 1) * U * r := Nat.mul_lt_mul_of_pos_right h2 h0
  have e1 : v * U * r = v * r * U := Nat.mul_right_comm ..
  have e2 : (v + 1) * U * r = (v + 1) * r * U := Nat.mul_right_comm ..
  rw [e1] at h1'
  rw [e2] at h2'
  constructor
  · refine Nat.le_of_mul_le_mul_right (c := U) ?_ hU
    rw [Nat.mul_assoc _ (v * r), Nat.mul_assoc _ N]
    generalize v * r * U = A at *
    generalize N * U = B at *
    generalize q * r = Q at *
    omega
  · refine Nat.lt_of_mul_lt_mul_right (a := U) ?_
    rw [Nat.mul_assoc _ ((v + 1) * r), Nat.mul_assoc _ N]
    generalize (v + 1) * r * U = A at *
    generalize N * U = B at *
    generalize q * r = Q at *
    omega

theorem small_aux {Q N M : Nat} (h : 16777216 * Q ≤ 16777217 * N) (h1 : N ≤ M) (h2 : 0 < M) : Q < 2 * M := by omega

theorem sq_aux {p x A B : Nat} (h : 16777215 * x ≤ 16777216 * p ∧ 16777216 * p ≤ 16777217 * x) (a : 16777216 * A ≤ 16777217 * p)
    (b : 16777215 * p < 16777216 * B) : 16777216 ^ 2 * A ≤ 16777217 ^ 2 * x ∧ 16777215 ^ 2 * x < 16777216 ^ 2 * B := by omega

/-- The divisor of a clock of `C` for a frequency between `C / 2^31` and `C`. -/
theorem divisor {f c : BitVec 32} {C r : Nat} (hc : Pos c (C * 2 ^ 149)) (hf : Pos f r) (h0 : 0 < r) (h1 : r ≤ C * 2 ^ 149) (h2 : C * 2 ^ 149 ≤ 2 ^ 31 * r) :
    ∃ v, fToU32 (fdiv c f) = some v ∧ 16777216 * (v * r) ≤ 16777217 * (C * 2 ^ 149) ∧ 16777215 * (C * 2 ^ 149) < 16777216 * ((v + 1) * r) := by
  have hU : 0 < (2:Nat) ^ 149 := by decide +kernel
  have hlo : 2 ^ 23 * r ≤ C * 2 ^ 149 * 2 ^ 149 := by
    have : (2:Nat) ^ 23 ≤ 2 ^ 149 := by decide +kernel
    rw [Nat.mul_comm]
    exact Nat.mul_le_mul h1 this
  have hhi : C * 2 ^ 149 * 2 ^ 149 ≤ 2 ^ 31 * 2 ^ 149 * r := by
    have := Nat.mul_le_mul_right (2 ^ 149) h2
    rw [Nat.mul_right_comm (2 ^ 31)]; exact this
  have ho : roundMag (C * 2 ^ 149 * 2 ^ 149) r < 0x7f800000 := by
    refine (roundMag_over _ _ h0).1 ?_
    have : 2 * (2 ^ 31 * 2 ^ 149) < ((2 ^ 24 - 1) * 2 ^ 253 + 2 ^ 277) := by decide +kernel
    have := Nat.mul_lt_mul_of_pos_right this h0
    rw [Nat.mul_assoc] at this
    exact Nat.lt_of_le_of_lt (Nat.mul_le_mul_left 2 hhi) this
  have hw := round_rel _ _ h0 hlo ho
  have hp := pos_fmk _ ho
  rw [fdiv_pos hc hf h0]
  have hq : fmag (roundMag (C * 2 ^ 149 * 2 ^ 149) r) < 2 ^ 32 * 2 ^ 149 := by
    have := hw.hi
    simp only [Nat.pow_one] at this
    refine Nat.lt_of_mul_lt_mul_right (a := r) ?_
    have e : 2 ^ 32 * 2 ^ 149 * r = 2 * (2 ^ 31 * 2 ^ 149 * r) := by
      rw [← Nat.mul_assoc 2, ← Nat.mul_assoc 2]
    rw [e]
    have hpos : 0 < 2 ^ 31 * 2 ^ 149 * r := Nat.mul_pos (Nat.mul_pos (by decide) hU) h0
    exact small_aux this hhi hpos
  refine ⟨_, u32_pos hp hq, ?_⟩
  rcases quot_aux hU hw rfl with h | h
  · exact h
  · omega

/-! ## The step of the sine wave -/

/-- Units of the product and of the quotient. -/
def stepUnits (r : Nat) : Nat := fmag (roundMag (fmag (roundMag (16777216 * 2 ^ 149 * r) (2 ^ 149)) * 2 ^ 149) (24000 * 2 ^ 149))

theorem stepUnits_mono {r r' : Nat} (h : r ≤ r') : stepUnits r ≤ stepUnits r' :=
  fmag_mono (roundMag_mono (by decide +kernel) (Nat.mul_le_mul_right _ (fmag_mono (roundMag_mono (by decide +kernel) (Nat.mul_le_mul_left _ h)))))

theorem p24 : Pos (intToF 16777216) (16777216 * 2 ^ 149) := ⟨by decide +kernel, by decide +kernel⟩
theorem p24000 : Pos (intToF 24000) (24000 * 2 ^ 149) := ⟨by decide +kernel, by decide +kernel⟩

theorem prod_le {r : Nat} (h : r ≤ 24000 * 2 ^ 149) : roundMag (16777216 * 2 ^ 149 * r) (2 ^ 149) ≤ 0x5C3B8000 := by
  have e : roundMag (16777216 * 2 ^ 149 * (24000 * 2 ^ 149)) (2 ^ 149) ≤ 0x5C3B8000 := by decide +kernel
  exact Nat.le_trans (roundMag_mono (by decide +kernel) (Nat.mul_le_mul_left _ h)) e

theorem quot_le {r : Nat} (h : r ≤ 24000 * 2 ^ 149) :
    roundMag (fmag (roundMag (16777216 * 2 ^ 149 * r) (2 ^ 149)) * 2 ^ 149) (24000 * 2 ^ 149) ≤ 0x4b800000 := by
  have e : roundMag (fmag (roundMag (16777216 * 2 ^ 149 * (24000 * 2 ^ 149)) (2 ^ 149)) * 2 ^ 149) (24000 * 2 ^ 149) ≤ 0x4b800000 := by decide +kernel
  exact Nat.le_trans (roundMag_mono (by decide +kernel)
    (Nat.mul_le_mul_right _ (fmag_mono (roundMag_mono (by decide +kernel) (Nat.mul_le_mul_left _ h))))) e

theorem toStep_pos {hz : BitVec 32} {r : Nat} (hp : Pos hz r) (h : r ≤ 24000 * 2 ^ 149) :
    toStep hz = some (stepUnits r / 2 ^ 149) ∧ stepUnits r / 2 ^ 149 ≤ 2 ^ 24 := by
  have h1 := prod_le h
  have h2 := quot_le h
  have hm : fmul (intToF 16777216) hz = _ := fmul_pos p24 hp
  have hp1 := pos_fmk (roundMag (16777216 * 2 ^ 149 * r) (2 ^ 149)) (by omega)
  rw [← hm] at hp1
  have hd := fdiv_pos hp1 p24000 (by decide +kernel)
  have hp2 := pos_fmk (roundMag (fmag (roundMag (16777216 * 2 ^ 149 * r) (2 ^ 149)) * 2 ^ 149) (24000 * 2 ^ 149)) (by omega)
  rw [← hd] at hp2
  have hb : stepUnits r ≤ 2 ^ 24 * 2 ^ 149 := by
    have e : stepUnits (24000 * 2 ^ 149) = 2 ^ 24 * 2 ^ 149 := by decide +kernel
    exact e ▸ stepUnits_mono h
  have hlt : (2:Nat) ^ 24 * 2 ^ 149 < 2 ^ 32 * 2 ^ 149 := by decide +kernel
  refine ⟨?_, ?_⟩
  · exact u32_pos hp2 (Nat.lt_of_le_of_lt hb hlt)
  · exact (Nat.div_le_iff_le_mul_add_pred (by decide +kernel)).2 (by rw [Nat.mul_comm]; omega)

theorem step_near {r : Nat} (h : r ≤ 24000 * 2 ^ 149) :
    16777216 ^ 2 * (stepUnits r / 2 ^ 149 * (24000 * 2 ^ 149)) ≤ 16777217 ^ 2 * (16777216 * r) ∧
      16777215 ^ 2 * (16777216 * r) < 16777216 ^ 2 * ((stepUnits r / 2 ^ 149 + 1) * (24000 * 2 ^ 149)) := by
  have hU : 0 < (2:Nat) ^ 149 := by decide +kernel
  have h1 := prod_le h
  have h2 := quot_le h
  rcases Nat.eq_zero_or_pos r with h0 | h0
  · rw [h0, show stepUnits 0 = 0 by decide +kernel]
    decide +kernel
  have w1 := round_rel (16777216 * 2 ^ 149 * r) (2 ^ 149) hU (by
    rw [Nat.mul_right_comm]
    exact Nat.mul_le_mul_right _ (by omega)) (by omega)
  unfold stepUnits
  generalize hp : fmag (roundMag (16777216 * 2 ^ 149 * r) (2 ^ 149)) = p at *
  have w1 : 16777215 * (16777216 * r) ≤ 16777216 * p ∧ 16777216 * p ≤ 16777217 * (16777216 * r) := by
    obtain ⟨a, b⟩ := w1
    simp only [Nat.pow_one] at a b
    rw [Nat.mul_right_comm 16777216 (2 ^ 149) r, ← Nat.mul_assoc _ (16777216 * r), ← Nat.mul_assoc _ p] at a b
    exact ⟨Nat.le_of_mul_le_mul_right a hU, Nat.le_of_mul_le_mul_right b hU⟩
  by_cases hlo : 2 ^ 23 * (24000 * 2 ^ 149) ≤ p * 2 ^ 149
  · have w2 := round_rel (p * 2 ^ 149) (24000 * 2 ^ 149) (by decide +kernel) hlo (by omega)
    rcases quot_aux hU w2 rfl with ⟨a, b⟩ | h
    · generalize fmag (roundMag (p * 2 ^ 149) (24000 * 2 ^ 149)) / 2 ^ 149 = v at *
      exact sq_aux w1 a b
    · exact absurd h (by decide +kernel)
  · have hv : fmag (roundMag (p * 2 ^ 149) (24000 * 2 ^ 149)) / 2 ^ 149 = 0 := by
      refine Nat.div_eq_of_lt ?_
      have : fmag (roundMag (2 ^ 23 * (24000 * 2 ^ 149)) (24000 * 2 ^ 149)) < 2 ^ 149 := by decide +kernel
      exact Nat.lt_of_le_of_lt (fmag_mono (roundMag_mono (by decide +kernel) (Nat.le_of_lt (Nat.lt_of_not_le hlo)))) this
    rw [hv]
    have hp' : p < 2 ^ 23 * 24000 := by
      rw [← Nat.mul_assoc] at hlo
      exact Nat.lt_of_mul_lt_mul_right (Nat.lt_of_not_le hlo)
    refine ⟨by rw [Nat.zero_mul]; exact Nat.zero_le _, ?_⟩
    have : 16777216 * 16777216 * 16777216 < 16777216 ^ 2 * ((0 + 1) * (24000 * 2 ^ 149)) / 2 ^ 40 := by decide +kernel
    have big : 2 ^ 100 ≤ 16777216 ^ 2 * ((0 + 1) * (24000 * 2 ^ 149)) := by decide +kernel
    refine Nat.lt_of_lt_of_le ?_ big
    clear big this hv hlo h1 h2 hp
    omega

end Snek.Tone
