import Verif.Proofs.AtofScale
import Verif.Proofs.Cmp
import Verif.Model.Time
/-! # Seconds and ticks -/
namespace Snek

theorem rne_mono {n n' D : Nat} (hD : 0 < D) (h : n ≤ n') : rne n D ≤ rne n' D := by
  have e1 := Nat.div_add_mod n D
  have e2 := Nat.div_add_mod n' D
  have l1 := Nat.mod_lt n hD
  have l2 := Nat.mod_lt n' hD
  have hq : n / D ≤ n' / D := Nat.div_le_div_right h
  rcases Nat.lt_or_eq_of_le hq with hlt | heq
  · unfold rne
    split <;> split <;> omega
  · unfold rne
    rw [heq] at e1
    rw [heq]
    generalize D * (n' / D) = X at *
    split <;> split <;> omega

theorem roundMag_mono {n n' d : Nat} (hd : 0 < d) (h : n ≤ n') : roundMag n d ≤ roundMag n' d := by
  rw [roundMag_eq, roundMag_eq]
  have hE : rexp n d ≤ rexp n' d := by
    have hs := (rexp_spec n' d hd).2
    refine rexp_le n d _ hd (Nat.lt_of_le_of_lt h ?_)
    rw [Nat.pow_add]
    calc n' < 2 ^ 24 * (d * 2 ^ rexp n' d) := hs
      _ = _ := by ac_rfl
  have r1 := rne_range n d hd
  have r2 := rne_range n' d hd
  rcases Nat.lt_or_eq_of_le hE with hlt | heq
  · have : 2 ^ 23 ≤ rne n' (d * 2 ^ rexp n' d) := by
      rcases r2.1 with h | h
      · omega
      · exact h
    omega
  · rw [heq]
    have := rne_mono (D := d * 2 ^ rexp n' d) (Nat.mul_pos hd (Nat.pow_pos (by decide))) h
    omega

theorem fmag_mono {m n : Nat} (h : m ≤ n) : fmag m ≤ fmag n := by
  rcases Nat.lt_or_eq_of_le h with h | h
  · exact Nat.le_of_lt (f32mag_mono h)
  · subst h; exact Nat.le_refl _

theorem fadd_pos {f g : BitVec 32} {r q : Nat} (hf : Pos f r) (hp : Pos g q) (h0 : r + q ≠ 0) : fadd f g = fmk false (roundMag (r + q) 1) := by
  obtain ⟨a1, a2, a3, a4⟩ := pos_flags hf
  obtain ⟨b1, b2, b3, b4⟩ := pos_flags hp
  unfold fadd
  rw [a1, b1, a2, b2, a4, b4]
  simp only [Bool.or_self, Bool.false_eq_true, if_false]
  rw [if_neg (by omega)]
  unfold fround
  have : decide ((r : Int) + q < 0) = false := decide_eq_false (by omega)
  rw [this, show ((r : Int) + q).natAbs = r + q by omega]

theorem tdiv_cast (a b : Nat) : Int.tdiv (a : Int) (b : Int) = ((a / b : Nat) : Int) := rfl

namespace Time

/-- The arithmetic of `snek_sec_to_ticks`. -/
theorem ticks_aux {x p S H U n : Nat} (hU : U = 2 * H) (hH : 0 < H) (h1 : Within 1 p x 1) (h2 : Within 1 S (p + H) 1) (hn : n = S / U) :
    16777215 * (16777215 * x + 16777216 * H) < 16777216 ^ 2 * ((n + 1) * U) ∧ 16777216 ^ 2 * (n * U) ≤ 16777217 * (16777217 * x + 16777216 * H) := by
  obtain ⟨a1, a2⟩ := h1
  obtain ⟨b1, b2⟩ := h2
  simp only [Nat.pow_one, Nat.mul_one] at a1 a2 b1 b2
  have e := Nat.div_add_mod S U
  have l := Nat.mod_lt S (show 0 < U by omega)
  rw [← hn, Nat.mul_comm] at e
  rw [Nat.add_mul, Nat.one_mul]
  generalize n * U = N at *
  omega

/-- Tiny products: nothing is left after the truncation. -/
theorem half_tiny {x : Nat} (h : x < 2 ^ 23) : fmag (roundMag (fmag (roundMag (x * 2 ^ 149) (2 ^ 149)) + 2 ^ 148) 1) / 2 ^ 149 = 0 := by
  have hU0 : 0 < (2:Nat) ^ 149 := by decide +kernel
  have h1 : fmag (roundMag (x * 2 ^ 149) (2 ^ 149)) ≤ fmag (roundMag (2 ^ 23 * 2 ^ 149) (2 ^ 149)) :=
    fmag_mono (roundMag_mono hU0 (Nat.mul_le_mul_right _ (Nat.le_of_lt h)))
  have h2 := fmag_mono (roundMag_mono (d := 1) (by decide) (Nat.add_le_add_right h1 (2 ^ 148)))
  have h3 : fmag (roundMag (fmag (roundMag (2 ^ 23 * 2 ^ 149) (2 ^ 149)) + 2 ^ 148) 1) < 2 ^ 149 := by decide +kernel
  exact Nat.div_eq_of_lt (Nat.lt_of_le_of_lt h2 h3)

/-- `(int) (f * c + 0.5f)` for a number `f` of `r` units. -/
def halfUp (c r : Nat) : Nat := fmag (roundMag (fmag (roundMag (r * c * 2 ^ 149) (2 ^ 149)) + 2 ^ 148) 1) / 2 ^ 149

theorem halfUp_mono {c r r' : Nat} (h : r ≤ r') : halfUp c r ≤ halfUp c r' := by
  have hU0 : 0 < (2:Nat) ^ 149 := by decide +kernel
  exact Nat.div_le_div_right (fmag_mono (roundMag_mono (d := 1) (by decide) (Nat.add_le_add_right
    (fmag_mono (roundMag_mono hU0 (Nat.mul_le_mul_right _ (Nat.mul_le_mul_right _ h)))) (2 ^ 148))))

theorem half_up {c r : Nat} {fc sec : BitVec 32} (hc : Pos fc (c * 2 ^ 149)) (hs : Pos sec r) (hhi : r * c ≤ (2 ^ 31 - 1000) * 2 ^ 149) :
    halfUp c r < 2 ^ 31 ∧ isFin (fadd (fmul sec fc) 0x3f000000) = true ∧ ftrunc (fadd (fmul sec fc) 0x3f000000) = (halfUp c r : Int) ∧
      16777215 * (16777215 * (r * c) + 16777216 * 2 ^ 148) < 16777216 ^ 2 * ((halfUp c r + 1) * 2 ^ 149) ∧
      16777216 ^ 2 * (halfUp c r * 2 ^ 149) ≤ 16777217 * (16777217 * (r * c) + 16777216 * 2 ^ 148) := by
  have hU : (2:Nat) ^ 149 = 2 * 2 ^ 148 := by decide +kernel
  have hH : 0 < (2:Nat) ^ 148 := by decide +kernel
  have hU0 : 0 < (2:Nat) ^ 149 := by decide +kernel
  have hmul := fmul_pos hs hc
  have hL : (2 ^ 31) * 2 ^ 149 * 16 ≤ ((2 ^ 24 - 1) * 2 ^ 253 + 2 ^ 277) := by decide +kernel
  have ho1 : roundMag (r * (c * 2 ^ 149)) (2 ^ 149) < 0x7f800000 := by
    refine (roundMag_over _ _ hU0).1 ?_
    generalize ((2 ^ 24 - 1) * 2 ^ 253 + 2 ^ 277) = T at *
    rw [← Nat.mul_assoc r, ← Nat.mul_assoc 2]
    refine Nat.mul_lt_mul_of_pos_right ?_ hU0
    generalize r * c = x at *
    generalize 2 ^ 149 = U at *
    omega
  have p1 := pos_fmk _ ho1
  have hh : Pos 0x3f000000#32 (2 ^ 148) := ⟨by decide, by decide +kernel⟩
  have hadd := fadd_pos p1 hh (by omega)
  rw [← hmul] at hadd
  have hp : fmag (roundMag (r * (c * 2 ^ 149)) (2 ^ 149)) ≤ 2 * (2 ^ 31 * 2 ^ 149) := by
    have e : 2 * (2 ^ 31 * 2 ^ 149) = fmag (roundMag (2 ^ 32 * 2 ^ 149 * 2 ^ 149) (2 ^ 149)) := by decide +kernel
    rw [e]
    refine fmag_mono (roundMag_mono hU0 ?_)
    rw [← Nat.mul_assoc]
    refine Nat.mul_le_mul_right _ (Nat.le_trans hhi ?_)
    exact Nat.mul_le_mul_right _ (by decide)
  have ho2 : roundMag (fmag (roundMag (r * (c * 2 ^ 149)) (2 ^ 149)) + 2 ^ 148) 1 < 0x7f800000 := by
    refine (roundMag_over _ 1 (by decide)).1 ?_
    generalize fmag (roundMag (r * (c * 2 ^ 149)) (2 ^ 149)) = p at *
    generalize ((2 ^ 24 - 1) * 2 ^ 253 + 2 ^ 277) = T at *
    generalize 2 ^ 149 = U at *
    generalize 2 ^ 148 = H at *
    omega
  have p2 := pos_fmk _ ho2
  have ht : ftrunc (fadd (fmul sec fc) 0x3f000000) = (halfUp c r : Int) := by
    unfold ftrunc halfUp
    rw [show (0x3f000000 : BitVec 32) = 0x3f000000#32 from rfl, hadd, (pos_flags p2).2.2.2, Nat.mul_assoc r c]
    exact tdiv_cast _ (2 ^ 149)
  have hfin : isFin (fadd (fmul sec fc) 0x3f000000) = true := by
    rw [show (0x3f000000 : BitVec 32) = 0x3f000000#32 from rfl, hadd]
    unfold isFin
    have := p2.1
    exact decide_eq_true (by omega)
  by_cases hlo : 2 ^ 23 ≤ r * c
  case neg =>
    have h0 : halfUp c r = 0 := half_tiny (Nat.lt_of_not_le hlo)
    rw [h0] at ht ⊢
    refine ⟨by decide, hfin, ht, ?_, by rw [Nat.zero_mul]; exact Nat.zero_le _⟩
    have hb : (2:Nat) ^ 24 ≤ 2 ^ 148 := by decide +kernel
    clear ht hp ho1 ho2 p2 p1 hadd hmul hL hfin
    rw [hU]
    generalize r * c = x at *
    generalize 2 ^ 149 = U at *
    generalize 2 ^ 148 = H at *
    omega
  have w1 := round_rel (r * (c * 2 ^ 149)) (2 ^ 149) hU0 (by rw [← Nat.mul_assoc]; exact Nat.mul_le_mul_right _ hlo) ho1
  have hb : (2:Nat) ^ 23 * 1 ≤ 2 ^ 148 := by decide +kernel
  have w2 := round_rel (fmag (roundMag (r * (c * 2 ^ 149)) (2 ^ 149)) + 2 ^ 148) 1 (by decide) (Nat.le_trans hb (Nat.le_add_left _ _)) ho2
  have hn : halfUp c r = fmag (roundMag (fmag (roundMag (r * (c * 2 ^ 149)) (2 ^ 149)) + 2 ^ 148) 1) / 2 ^ 149 := by unfold halfUp; rw [Nat.mul_assoc r c]
  clear p1 p2 ho1 ho2 hadd hmul
  generalize fmag (roundMag (r * (c * 2 ^ 149)) (2 ^ 149)) = p at *
  have w1 : Within 1 p (r * c) 1 := by
    obtain ⟨a, b⟩ := w1
    simp only [Nat.pow_one] at a b
    clear w2 ht hn
    generalize 2 ^ 149 = U at *
    rw [← Nat.mul_assoc r c, ← Nat.mul_assoc _ (r * c), ← Nat.mul_assoc _ p] at a b
    refine ⟨?_, ?_⟩
    · simp only [Nat.pow_one, Nat.mul_one]; exact Nat.le_of_mul_le_mul_right a hU0
    · simp only [Nat.pow_one, Nat.mul_one]; exact Nat.le_of_mul_le_mul_right b hU0
  generalize fmag (roundMag (p + 2 ^ 148) 1) = S at *
  obtain ⟨t1, t2⟩ := ticks_aux (n := halfUp c r) hU hH w1 w2 hn
  refine ⟨?_, hfin, ht, t1, t2⟩
  rw [hn, Nat.div_lt_iff_lt_mul hU0]
  have a1 := w1.hi
  have a2 := w2.hi
  simp only [Nat.pow_one, Nat.mul_one] at a1 a2
  clear t1 t2 ht hn w1 w2
  generalize r * c = x at *
  generalize 2 ^ 149 = U at *
  generalize 2 ^ 148 = H at *
  omega

theorem sec_ticks {fcpu c r : Nat} {sec : BitVec 32} (hc : Pos (ticksPerSecond fcpu) (c * 2 ^ 149)) (hs : Pos sec r)
    (hhi : r * c ≤ (2 ^ 31 - 1000) * 2 ^ 149) :
    ∃ n, n < 2 ^ 31 ∧ secToTicks fcpu sec = some (BitVec.ofNat 32 n) ∧ 16777215 * (16777215 * (r * c) + 16777216 * 2 ^ 148) < 16777216 ^ 2 * ((n + 1) * 2 ^ 149) ∧
      16777216 ^ 2 * (n * 2 ^ 149) ≤ 16777217 * (16777217 * (r * c) + 16777216 * 2 ^ 148) := by
  obtain ⟨h1, h2, h3, h4, h5⟩ := half_up hc hs hhi
  refine ⟨_, h1, ?_, h4, h5⟩
  unfold secToTicks
  simp only []
  rw [h2, h3, if_pos]
  · rw [BitVec.ofInt_natCast]
  · exact ⟨rfl, by omega, by omega⟩

/-- The magnitude of a converted number. -/
def cv (z : Nat) : Nat := fmag (roundMag (z * 2 ^ 149) 1)

theorem cv_mono {x y : Nat} (h : x ≤ y) : cv x ≤ cv y := fmag_mono (roundMag_mono (by decide) (Nat.mul_le_mul_right _ h))

theorem cv_bound {r Z U B : Nat} (h2 : 16777216 * r ≤ 16777217 * Z) (h : Z ≤ B * U) : r ≤ 2 * B * U := by
  rw [Nat.mul_assoc]; generalize B * U = X at *; omega

theorem intToF_nat (z : Nat) (h0 : 0 < z) : intToF (z : Int) = fmk false (roundMag (z * 2 ^ 149) 1) := by
  unfold intToF
  rw [if_neg (by omega)]
  unfold fround
  have e1 : ((z : Int) * 2 ^ 149).natAbs = z * 2 ^ 149 := by rw [Int.natAbs_mul, Int.natAbs_natCast]; rfl
  have e2 : decide ((z : Int) * 2 ^ 149 < 0) = false := by
    refine decide_eq_false (Int.not_lt.2 (Int.mul_nonneg (by omega) (by decide +kernel)))
  rw [e1, e2]

theorem pos_unique {f : BitVec 32} {a b : Nat} (h : Pos f a) (h' : Pos f b) : a = b := h.2.symm.trans h'.2

theorem cv_pos (z : Nat) (hz : z < 2 ^ 32) : Pos (intToF z) (cv z) ∧ cv z ≤ 2 * 2 ^ 32 * 2 ^ 149 := by
  rcases Nat.eq_zero_or_pos z with rfl | h0
  · exact ⟨⟨by decide +kernel, by decide +kernel⟩, by decide +kernel⟩
  · have ho : roundMag (z * 2 ^ 149) 1 < 0x7f800000 := by
      refine (roundMag_over _ 1 (by decide)).1 ?_
      have h1 : z * 2 ^ 149 ≤ 2 ^ 32 * 2 ^ 149 := Nat.mul_le_mul_right _ (Nat.le_of_lt hz)
      have h2 : 2 * (2 ^ 32 * 2 ^ 149) < ((2 ^ 24 - 1) * 2 ^ 253 + 2 ^ 277) * 1 := by decide +kernel
      exact Nat.lt_of_le_of_lt (Nat.mul_le_mul_left _ h1) h2
    have e := intToF_nat z h0
    have hp : Pos (intToF z) (cv z) := by rw [e]; exact pos_fmk _ ho
    obtain ⟨r, h1, h2⟩ := intToF_within z h0 hz
    rw [pos_unique h1 hp] at h2
    refine ⟨hp, ?_⟩
    have h2 := h2.hi
    simp only [Nat.pow_one, Nat.mul_one] at h2
    exact cv_bound h2 (Nat.mul_le_mul_right _ (Nat.le_of_lt hz))

theorem mul_bound {a q : Nat} (hb : q ≤ 2 ^ 149) (ha : a ≤ 2 * 2 ^ 32 * 2 ^ 149) : roundMag (a * q) (2 ^ 149) < 0x7f800000 := by
  have hU0 : 0 < (2:Nat) ^ 149 := by decide +kernel
  refine (roundMag_over _ _ hU0).1 ?_
  have hL : 2 * (2 * 2 ^ 32 * 2 ^ 149) < ((2 ^ 24 - 1) * 2 ^ 253 + 2 ^ 277) := by decide +kernel
  have h1 : 2 * (a * q) ≤ 2 * (2 * 2 ^ 32 * 2 ^ 149 * 2 ^ 149) := Nat.mul_le_mul_left _ (Nat.mul_le_mul ha hb)
  refine Nat.lt_of_le_of_lt h1 ?_
  rw [← Nat.mul_assoc]
  exact Nat.mul_lt_mul_of_pos_right hL hU0

theorem monotonic_val {fcpu q x : Nat} (hq : Pos (secondsPerTick fcpu) q) (hb : q ≤ 2 ^ 149) (hx : x < 2 ^ 32) :
    Spec.f32val (monotonic fcpu (BitVec.ofNat 32 x)) = (fmag (roundMag (cv x * q) (2 ^ 149)) : Nat) := by
  obtain ⟨x1, x2⟩ := cv_pos x hx
  unfold monotonic
  rw [fval_eq_spec, BitVec.toNat_ofNat, Nat.mod_eq_of_lt hx, fmul_pos x1 hq, (pos_flags (pos_fmk _ (mul_bound hb x2))).2.2.2]

theorem monotonic_mono {fcpu q x y : Nat} (hq : Pos (secondsPerTick fcpu) q) (hb : q ≤ 2 ^ 149) (hxy : x ≤ y) (hy : y < 2 ^ 32) :
    Spec.f32val (monotonic fcpu (BitVec.ofNat 32 x)) ≤ Spec.f32val (monotonic fcpu (BitVec.ofNat 32 y)) := by
  rw [monotonic_val hq hb hy, monotonic_val hq hb (Nat.lt_of_le_of_lt hxy hy)]
  exact Int.ofNat_le.2 (fmag_mono (roundMag_mono (Nat.pow_pos (by decide)) (Nat.mul_le_mul_right _ (cv_mono hxy))))

end Time
end Snek
