import Verif.Proofs.Approx
import Verif.Model.Atof
/-!
# Scaling by powers of ten
-/
namespace Snek

/-- A finite number without sign, of `r` units. -/
def Pos (f : BitVec 32) (r : Nat) : Prop := f.toNat < 0x7f800000 ∧ fmag f.toNat = r

theorem pos_flags {f : BitVec 32} {r : Nat} (h : Pos f r) : isNanF f = false ∧ isInfF f = false ∧ fneg f = false ∧ fval f = (r : Int) := by
  obtain ⟨h1, h2⟩ := h
  have hn : fneg f = false := by unfold fneg; exact decide_eq_false (by omega)
  refine ⟨?_, ?_, hn, ?_⟩
  · unfold isNanF; exact decide_eq_false (by omega)
  · unfold isInfF; exact decide_eq_false (by omega)
  · unfold fval; rw [hn]; simp only [Bool.false_eq_true, if_false]; rw [h2]

theorem pos_fmk (m : Nat) (h : m < 0x7f800000) : Pos (fmk false m) (fmag m) := by
  have e : (fmk false m).toNat = m := by unfold fmk; simp only [Bool.false_eq_true, if_false, Nat.add_zero, BitVec.toNat_ofNat]; omega
  exact ⟨by rw [e]; exact h, by rw [e]⟩

theorem fmul_pos {f p : BitVec 32} {r q : Nat} (hf : Pos f r) (hp : Pos p q) : fmul f p = fmk false (roundMag (r * q) (2 ^ 149)) := by
  obtain ⟨a1, a2, a3, a4⟩ := pos_flags hf
  obtain ⟨b1, b2, b3, b4⟩ := pos_flags hp
  unfold fmul
  rw [a1, b1, a2, b2, a3, b3, a4, b4]
  simp only [Bool.or_self, Bool.false_eq_true, if_false, Int.natAbs_natCast]
  rfl

/-- A natural number, converted. -/
theorem intToF_within (x : Nat) (h0 : 0 < x) (h : x < 2 ^ 32) : ∃ r, Pos (intToF x) r ∧ Within 1 r (x * 2 ^ 149) 1 := by
  have hlo : 2 ^ 23 * 1 ≤ x * 2 ^ 149 := by
    have : 2 ^ 23 * 1 ≤ 1 * 2 ^ 149 := by decide +kernel
    exact Nat.le_trans this (Nat.mul_le_mul_right _ h0)
  have ho : roundMag (x * 2 ^ 149) 1 < 0x7f800000 := by
    refine (roundMag_over _ 1 (by decide)).1 ?_
    have h1 : x * 2 ^ 149 ≤ 2 ^ 32 * 2 ^ 149 := Nat.mul_le_mul_right _ (Nat.le_of_lt h)
    have h2 : 2 * (2 ^ 32 * 2 ^ 149) < ((2 ^ 24 - 1) * 2 ^ 253 + 2 ^ 277) * 1 := by decide +kernel
    exact Nat.lt_of_le_of_lt (Nat.mul_le_mul_left _ h1) h2
  have e : intToF (x : Int) = fmk false (roundMag (x * 2 ^ 149) 1) := by
    unfold intToF
    rw [if_neg (by omega)]
    unfold fround
    have e1 : ((x : Int) * 2 ^ 149).natAbs = x * 2 ^ 149 := by rw [Int.natAbs_mul, Int.natAbs_natCast]; rfl
    have e2 : decide ((x : Int) * 2 ^ 149 < 0) = false := by
      refine decide_eq_false (Int.not_lt.2 (Int.mul_nonneg (by omega) (by decide +kernel)))
    rw [e1, e2]
  rw [e]
  exact ⟨_, pos_fmk _ ho, round_rel _ _ (by decide) hlo ho⟩

theorem range_aux {X Y W L H : Nat} (hW : 0 < W) (h1 : X ≤ 2 * (Y * W)) (h2 : 4 * (Y * W) ≤ 5 * X) (hL : 2 * L * W ≤ X) (hH : X ≤ H * W) :
    L ≤ Y ∧ 4 * Y ≤ 5 * H := by
  constructor
  · refine Nat.le_of_mul_le_mul_right (c := W) ?_ hW
    rw [Nat.mul_assoc] at hL
    omega
  · refine Nat.le_of_mul_le_mul_right (c := W) ?_ hW
    have e1 : 4 * Y * W = 4 * (Y * W) := Nat.mul_assoc ..
    have e2 : 5 * H * W = 5 * (H * W) := Nat.mul_assoc ..
    rw [e1, e2]
    omega

theorem over_aux {x H T U : Nat} (hU : 0 < U) (hT : 5 * H < 2 * T) (h : 4 * x ≤ 5 * (H * U)) : 2 * x < T * U := by
  have r3 := Nat.mul_lt_mul_of_pos_right hT hU
  rw [Nat.mul_assoc, Nat.mul_assoc] at r3
  omega

theorem mul_step {f p : BitVec 32} {k r q N Q A B : Nat} (hk : k ≤ 13) (hf : Pos f r) (hp : Pos p q) (h : Within k r N Q)
    (h' : Within 1 q (A * 2 ^ 149) B) (hQ : 0 < Q) (hB : 0 < B) (hL : 2 ^ 24 * (Q * B) ≤ N * A) (hH : N * A ≤ 2 ^ 276 * (Q * B)) :
    ∃ r', Pos (fmul f p) r' ∧ Within (k + 2) r' (N * A) (Q * B) := by
  have hU : 0 < 2 ^ 149 := by decide +kernel
  obtain ⟨g1, g2⟩ := prod_range hk h h'
  have hW : 0 < Q * B := Nat.mul_pos hQ hB
  have r1 : 2 ^ 23 * 2 ^ 149 ≤ r * q ∧ 4 * (r * q) ≤ 5 * (2 ^ 276 * 2 ^ 149) := by
    refine range_aux (X := N * A * 2 ^ 149) (W := Q * B) hW g1 g2 ?_ ?_
    · have : 2 * (2 ^ 23 * 2 ^ 149) * (Q * B) = 2 ^ 24 * (Q * B) * 2 ^ 149 := by
        generalize 2 ^ 149 = U
        generalize Q * B = W
        rw [show 2 * (2 ^ 23 * U) = 2 ^ 24 * U by omega]
        ac_rfl
      rw [this]
      exact Nat.mul_le_mul_right _ hL
    · rw [Nat.mul_right_comm (2 ^ 276)]
      exact Nat.mul_le_mul_right _ hH
  have ho : roundMag (r * q) (2 ^ 149) < 0x7f800000 := by
    refine (roundMag_over (r * q) (2 ^ 149) hU).1 ?_
    exact over_aux hU (by decide +kernel) r1.2
  rw [fmul_pos hf hp]
  exact ⟨_, pos_fmk _ ho, mul_within hU h h' (round_rel _ _ hU r1.1 ho)⟩

namespace Atof

/-- A table of powers: from `b / 2` down to 1, each approximately `A pwr / B pwr`. -/
def Table (A B : Nat → Nat) : Nat → List (Nat × BitVec 32) → Prop
  | b, [] => b = 1
  | b, (pwr, p) :: t => b = 2 * pwr ∧ 0 < pwr ∧ (∃ q, Pos p q ∧ Within 1 q (A pwr * 2 ^ 149) (B pwr)) ∧ Table A B pwr t

theorem scale_spec (A B : Nat → Nat) (hA : ∀ x y, A (x + y) = A x * A y) (hB : ∀ x y, B (x + y) = B x * B y) (hA0 : A 0 = 1) (hB0 : B 0 = 1)
    (hBp : ∀ x, 0 < B x) : ∀ (t : List (Nat × BitVec 32)) (b e k : Nat) (f : BitVec 32) (r N Q : Nat), Table A B b t → e < b → k + 2 * t.length ≤ 15 →
      Pos f r → Within k r N Q → 0 < Q →
      (∀ e' ≤ e, 2 ^ 24 * (Q * B e') ≤ N * A e' ∧ N * A e' ≤ 2 ^ 276 * (Q * B e')) →
      ∃ r', Pos (scale t e f) r' ∧ Within (k + 2 * t.length) r' (N * A e) (Q * B e) := by
  intro t
  induction t with
  | nil =>
    intro b e k f r N Q hT he _ hf h _ _
    have : e = 0 := by unfold Table at hT; omega
    subst this
    rw [hA0, hB0, Nat.mul_one, Nat.mul_one]
    exact ⟨r, hf, h⟩
  | cons x t ih =>
    obtain ⟨pwr, p⟩ := x
    intro b e k f r N Q hT he hk hf h hQ hr
    obtain ⟨rfl, hp0, ⟨q, hq, hw⟩, hT'⟩ := hT
    rw [List.length_cons] at hk ⊢
    show ∃ r', Pos (scale t (e % pwr) (mulN p (e / pwr) f)) r' ∧ _
    by_cases hlt : e < pwr
    · rw [Nat.div_eq_of_lt hlt, Nat.mod_eq_of_lt hlt]
      obtain ⟨r', g1, g2⟩ := ih pwr e k f r N Q hT' hlt (by omega) hf h hQ hr
      exact ⟨r', g1, g2.mono _ (by omega)⟩
    · obtain ⟨d, rfl⟩ := Nat.exists_eq_add_of_le (Nat.le_of_not_lt hlt)
      have e1 : (pwr + d) / pwr = 1 := by rw [Nat.add_div_left _ hp0, Nat.div_eq_of_lt (by omega)]
      have e2 : (pwr + d) % pwr = d := by rw [Nat.add_mod_left, Nat.mod_eq_of_lt (by omega)]
      rw [e1, e2]
      obtain ⟨l1, l2⟩ := hr pwr (by omega)
      obtain ⟨r1, g1, g2⟩ := mul_step (by omega) hf hq h hw hQ (hBp _) l1 l2
      obtain ⟨r', g3, g4⟩ := ih pwr d (k + 2) (fmul f p) r1 (N * A pwr) (Q * B pwr) hT' (by omega) (by omega) g1 g2 (Nat.mul_pos hQ (hBp _)) (by
        intro e' he'
        have := hr (pwr + e') (by omega)
        rw [hA, hB, ← Nat.mul_assoc Q, ← Nat.mul_assoc N] at this
        exact this)
      refine ⟨r', g3, ?_⟩
      rw [hA, hB, ← Nat.mul_assoc, ← Nat.mul_assoc]
      exact g4.mono _ (by omega)

theorem table_p10 : Table (fun x => 10 ^ x) (fun _ => 1) 64 pwrP10 := by
  have key : ∀ (p : BitVec 32) (n : Nat), (p.toNat < 0x7f800000 ∧ 16777215 ^ 1 * (10 ^ n * 2 ^ 149) ≤ 16777216 ^ 1 * (fmag p.toNat * 1) ∧
      16777216 ^ 1 * (fmag p.toNat * 1) ≤ 16777217 ^ 1 * (10 ^ n * 2 ^ 149)) → ∃ q, Pos p q ∧ Within 1 q (10 ^ n * 2 ^ 149) 1 :=
    fun p n h => ⟨_, ⟨h.1, rfl⟩, ⟨h.2.1, h.2.2⟩⟩
  refine ⟨rfl, by decide, key _ _ (by decide +kernel), rfl, by decide, key _ _ (by decide +kernel), rfl, by decide, key _ _ (by decide +kernel),
    rfl, by decide, key _ _ (by decide +kernel), rfl, by decide, key _ _ (by decide +kernel), rfl, by decide, key _ _ (by decide +kernel), rfl⟩

theorem table_m10 : Table (fun _ => 1) (fun x => 10 ^ x) 64 pwrM10 := by
  have key : ∀ (p : BitVec 32) (n : Nat), (p.toNat < 0x7f800000 ∧ 16777215 ^ 1 * (1 * 2 ^ 149) ≤ 16777216 ^ 1 * (fmag p.toNat * 10 ^ n) ∧
      16777216 ^ 1 * (fmag p.toNat * 10 ^ n) ≤ 16777217 ^ 1 * (1 * 2 ^ 149)) → ∃ q, Pos p q ∧ Within 1 q (1 * 2 ^ 149) (10 ^ n) :=
    fun p n h => ⟨_, ⟨h.1, rfl⟩, ⟨h.2.1, h.2.2⟩⟩
  refine ⟨rfl, by decide, key _ _ (by decide +kernel), rfl, by decide, key _ _ (by decide +kernel), rfl, by decide, key _ _ (by decide +kernel),
    rfl, by decide, key _ _ (by decide +kernel), rfl, by decide, key _ _ (by decide +kernel), rfl, by decide, key _ _ (by decide +kernel), rfl⟩

end Atof
end Snek
