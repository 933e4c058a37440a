import Verif.Model.MetalTime
import Verif.Proofs.TimeFloat
import Verif.Proofs.Time
import Verif.Proofs.Tone
import Verif.Proofs.Number
import Verif.Spec.Number
/-!
# C103 The clock of the HiFive1
-/
namespace Snek.MetalTime
open Snek.Time Spec

/-- The clock gives the time in milliseconds, for 2^64 / 1000 cycles (at 32768 Hz, 17 million years), and wraps after 2^32 of them. -/
theorem C103_clock (cycles freq : Nat) (h : cycles * 1000 < 2 ^ 64) : (millis cycles freq).toNat = cycles * 1000 / freq % 2 ^ 32 := by
  unfold millis
  rw [Nat.mod_eq_of_lt h, BitVec.toNat_ofNat]

theorem pos_int (n : Nat) (h : n < 2 ^ 24) : Pos (intToF n) (n * 2 ^ 149) := by
  have hd : Denotes (intToF (n : Int)) n := intToF_denotes (z := (n : Int)) ⟨by omega, by omega⟩
  have hp := (cv_pos n (by omega)).1
  refine ⟨hp.1, ?_⟩
  have hv := hd.2
  unfold Spec.f32val at hv
  rw [if_pos (by have := hp.1; omega)] at hv
  have : ((fmag (intToF n).toNat : Nat) : Int) = ((n * 2 ^ 149 : Nat) : Int) := by rw [Int.natCast_mul]; exact hv
  exact Int.ofNat.inj this

theorem sum_bound {a b : Nat} (ha : a ≤ 2 * 2 ^ 32 * 2 ^ 149) (hb : b ≤ 2 * 2 ^ 32 * 2 ^ 149) : roundMag (a + b) 1 < 0x7f800000 := by
  refine (roundMag_over _ 1 (by decide)).1 ?_
  have hL : 2 * (2 * 2 ^ 32 * 2 ^ 149 + 2 * 2 ^ 32 * 2 ^ 149) < ((2 ^ 24 - 1) * 2 ^ 253 + 2 ^ 277) * 1 := by decide +kernel
  refine Nat.lt_of_le_of_lt (Nat.mul_le_mul_left 2 (Nat.add_le_add ha hb)) hL

theorem within_bound {p x U B : Nat} (h : Within 1 p x 1) (hx : x ≤ B * U) : p ≤ 2 * B * U := by
  have h2 := h.hi
  simp only [Nat.pow_one, Nat.mul_one] at h2
  exact cv_bound h2 hx

theorem expire_aux {x p q y T H U e : Nat} (hU : U = 2 * H) (hH : 0 < H) (h1 : Within 1 p x 1) (h2 : Within 1 q (p + H) 1) (h3 : Within 1 y (T + q) 1)
    (he : e = y / U) (hT : T < 2 ^ 23 * U) (hx : x < 2 ^ 22 * U) : T + x < (e + 2) * U ∧ e * U < T + x + 2 * U := by
  obtain ⟨a1, a2⟩ := h1
  obtain ⟨b1, b2⟩ := h2
  obtain ⟨c1, c2⟩ := h3
  simp only [Nat.pow_one, Nat.mul_one] at a1 a2 b1 b2 c1 c2
  have e' := Nat.div_add_mod y U
  have l := Nat.mod_lt y (show 0 < U by omega)
  rw [← he, Nat.mul_comm] at e'
  rw [Nat.add_mul]
  generalize e * U = E at *
  subst hU
  omega

theorem aux1 {x U T : Nat} (h : x < 2 ^ 22 * U) (hL : 2 ^ 22 * U * 16 ≤ T) : 2 * x < T := by omega

theorem aux2 {H q T : Nat} (hb : 2 ^ 48 ≤ H) (h : 16777215 * H ≤ 16777216 * q) : 2 ^ 23 * 1 ≤ T + q ∧ T + q ≠ 0 := by omega

theorem aux3 {E T x U : Nat} (h : E < T + x + 2 * U) (hT : T < 2 ^ 23 * U) (hx : x < 2 ^ 22 * U) : E < 2 ^ 24 * U := by omega

/-- Up to an uptime of 2^23 ms (2.3 hours) `time.sleep` ends less than 2 ms away from the time asked for, for every duration up to 2^22 ms
(70 minutes). -/
theorem C103_expire_partial (now : Nat) (sec : BitVec 32) (r : Nat) (hf : sec.toNat < 0x7f800000) (hv : Spec.f32val sec = r) (hn : now < 2 ^ 23)
    (hlo : 2 ^ 23 ≤ r * 1000) (hhi : r * 1000 < 2 ^ 22 * 2 ^ 149) :
    ∃ e : Nat, e < 2 ^ 24 ∧ expire (BitVec.ofNat 32 now) sec = some (BitVec.ofNat 32 e) ∧
      now * 2 ^ 149 + r * 1000 < (e + 2) * 2 ^ 149 ∧ e * 2 ^ 149 < now * 2 ^ 149 + r * 1000 + 2 * 2 ^ 149 := by
  have hU : (2:Nat) ^ 149 = 2 * 2 ^ 148 := by decide +kernel
  have hH : 0 < (2:Nat) ^ 148 := by decide +kernel
  have hU0 : 0 < (2:Nat) ^ 149 := by decide +kernel
  have hs : Pos sec r := by
    refine ⟨hf, ?_⟩
    unfold Spec.f32val at hv
    rw [if_pos (by omega)] at hv
    exact Int.ofNat.inj hv
  have hc : Pos (intToF 1000) (1000 * 2 ^ 149) := pos_int 1000 (by decide)
  have hmul := fmul_pos hs hc
  have ho1 : roundMag (r * (1000 * 2 ^ 149)) (2 ^ 149) < 0x7f800000 := by
    refine (roundMag_over _ _ hU0).1 ?_
    have hL : (2 ^ 22) * 2 ^ 149 * 16 ≤ ((2 ^ 24 - 1) * 2 ^ 253 + 2 ^ 277) := by decide +kernel
    rw [← Nat.mul_assoc r, ← Nat.mul_assoc 2]
    exact Nat.mul_lt_mul_of_pos_right (aux1 hhi hL) hU0
  have p1 := pos_fmk _ ho1
  have w1 := round_rel (r * (1000 * 2 ^ 149)) (2 ^ 149) hU0 (by rw [← Nat.mul_assoc]; exact Nat.mul_le_mul_right _ hlo) ho1
  rw [← hmul] at p1
  generalize fmag (roundMag (r * (1000 * 2 ^ 149)) (2 ^ 149)) = p at *
  have w1 : Within 1 p (r * 1000) 1 := by
    obtain ⟨a, b⟩ := w1
    simp only [Nat.pow_one] at a b
    generalize 2 ^ 149 = U at *
    rw [← Nat.mul_assoc r, ← Nat.mul_assoc _ (r * 1000), ← Nat.mul_assoc _ p] at a b
    refine ⟨?_, ?_⟩
    · simp only [Nat.pow_one, Nat.mul_one]; exact Nat.le_of_mul_le_mul_right a hU0
    · simp only [Nat.pow_one, Nat.mul_one]; exact Nat.le_of_mul_le_mul_right b hU0
  have hp : p ≤ 2 * 2 ^ 22 * 2 ^ 149 := within_bound w1 (Nat.le_of_lt hhi)
  have hh : Pos 0x3f000000#32 (2 ^ 148) := ⟨by decide, by decide +kernel⟩
  have ho2 : roundMag (p + 2 ^ 148) 1 < 0x7f800000 :=
    sum_bound (Nat.le_trans hp (by decide +kernel)) (by decide +kernel)
  have hadd := fadd_pos p1 hh (by omega)
  have p2 := pos_fmk _ ho2
  rw [← hadd] at p2
  have w2 := round_rel (p + 2 ^ 148) 1 (by decide) (Nat.le_trans (by decide +kernel) (Nat.le_add_left _ _)) ho2
  generalize fmag (roundMag (p + 2 ^ 148) 1) = q at *
  have hq : q ≤ 2 * 2 ^ 24 * 2 ^ 149 := within_bound w2 (Nat.le_trans (Nat.add_le_add_right hp _) (by decide +kernel))
  have hT : now * 2 ^ 149 < 2 ^ 23 * 2 ^ 149 := Nat.mul_lt_mul_of_pos_right hn hU0
  have ho3 : roundMag (now * 2 ^ 149 + q) 1 < 0x7f800000 :=
    sum_bound (Nat.le_trans (Nat.le_of_lt hT) (by decide +kernel)) (Nat.le_trans hq (by decide +kernel))
  have hq1 : 16777215 * 2 ^ 148 ≤ 16777216 * q := by
    have := w2.lo
    simp only [Nat.pow_one, Nat.mul_one] at this
    exact Nat.le_trans (Nat.mul_le_mul_left _ (Nat.le_add_left _ _)) this
  have hb : (2:Nat) ^ 48 ≤ 2 ^ 148 := by decide +kernel
  have hadd' := fadd_pos (pos_int now (by omega)) p2 (aux2 hb hq1).2
  have p3 := pos_fmk _ ho3
  rw [← hadd'] at p3
  have w3 := round_rel (now * 2 ^ 149 + q) 1 (by decide) (aux2 hb hq1).1 ho3
  generalize fmag (roundMag (now * 2 ^ 149 + q) 1) = y at *
  obtain ⟨t1, t2⟩ := expire_aux (e := y / 2 ^ 149) hU hH w1 w2 w3 rfl hT hhi
  have he : y / 2 ^ 149 < 2 ^ 24 := by
    apply Nat.lt_of_mul_lt_mul_right (a := 2 ^ 149)
    exact aux3 t2 hT hhi
  refine ⟨y / 2 ^ 149, he, ?_, t1, t2⟩
  unfold expire
  have htn : (BitVec.ofNat 32 now).toNat = now := by rw [BitVec.toNat_ofNat]; omega
  have ht : ftrunc (fadd (intToF now) (fadd (fmul sec (intToF 1000)) 0x3f000000)) = ((y / 2 ^ 149 : Nat) : Int) := by
    unfold ftrunc
    rw [show (0x3f000000 : BitVec 32) = 0x3f000000#32 from rfl, (pos_flags p3).2.2.2]
    exact tdiv_cast _ (2 ^ 149)
  have hfin : isFin (fadd (intToF now) (fadd (fmul sec (intToF 1000)) 0x3f000000)) = true := by
    unfold isFin
    have := p3.1
    exact decide_eq_true (by rw [show (0x3f000000 : BitVec 32) = 0x3f000000#32 from rfl]; omega)
  simp only [htn]
  rw [hfin, ht, if_pos]
  · rw [BitVec.ofInt_natCast]
  · exact ⟨rfl, by omega, by omega⟩

/-- The loop waits at a look at the clock exactly when the time to end is not reached. -/
theorem C103_waits (e t : Nat) (h1 : t < e + 2 ^ 31) (h2 : e < t + 2 ^ 31) : waits (BitVec.ofNat 32 e) (BitVec.ofNat 32 t) = true ↔ t < e := by
  unfold waits
  rw [decide_eq_true_iff]
  rcases Nat.lt_or_ge t e with h | h
  · have := diff_toInt t (e - t) t (Nat.le_refl _) (by omega) (by omega)
    rw [← BitVec.ofNat_add, show t + (e - t) = e by omega] at this
    exact ⟨fun _ => h, fun _ => this⟩
  · have := diff_toInt_neg e 0 t h (by omega)
    rw [← BitVec.ofNat_add, Nat.add_zero] at this
    exact ⟨fun h => absurd h this, fun h' => by omega⟩

theorem monotonic_val {x : Nat} (hx : x < 2 ^ 32) :
    Spec.f32val (monotonic (BitVec.ofNat 32 x)) = (fmag (roundMag (cv x * 2 ^ 149) (1000 * 2 ^ 149)) : Nat) := by
  obtain ⟨x1, x2⟩ := cv_pos x hx
  have hU0 : 0 < 1000 * (2:Nat) ^ 149 := by decide +kernel
  have ho : roundMag (cv x * 2 ^ 149) (1000 * 2 ^ 149) < 0x7f800000 := by
    refine (roundMag_over _ _ hU0).1 ?_
    have hL : 2 * (2 * 2 ^ 32 * 2 ^ 149 * 2 ^ 149) < ((2 ^ 24 - 1) * 2 ^ 253 + 2 ^ 277) * (1000 * 2 ^ 149) := by decide +kernel
    exact Nat.lt_of_le_of_lt (Nat.mul_le_mul_left _ (Nat.mul_le_mul_right _ x2)) hL
  unfold monotonic
  rw [fval_eq_spec, BitVec.toNat_ofNat, Nat.mod_eq_of_lt hx, Snek.Tone.fdiv_pos x1 (show Pos (intToF 1000) (1000 * 2 ^ 149) from pos_int 1000 (by decide)) hU0, (pos_flags (pos_fmk _ ho)).2.2.2]

/-- `time.monotonic` does not go backwards before the count wraps. -/
theorem C103_monotonic (r r' : BitVec 32) (h : r.toNat ≤ r'.toNat) : Spec.f32val (monotonic r) ≤ Spec.f32val (monotonic r') := by
  have e : ∀ x : BitVec 32, BitVec.ofNat 32 x.toNat = x := fun x => by simp
  rw [← e r, ← e r', monotonic_val r.isLt, monotonic_val r'.isLt]
  exact Int.ofNat_le.2 (fmag_mono (roundMag_mono (by decide +kernel) (Nat.mul_le_mul_right _ (cv_mono h))))

/-- After 9 hours and 20 minutes (2^25 ms) `time.sleep(0.001)` does not wait at all: a `float` does not hold the sum. -/
theorem C103_violated_uptime : expire 0x2000000#32 0x3a83126f = some 0x2000000#32 ∧ waits 0x2000000#32 0x2000000#32 = false := by decide +kernel

/-- Half a second, one minute after the start. -/
example : (0x3f000000 : BitVec 32).toNat < 0x7f800000 ∧ Spec.f32val 0x3f000000 = ((2 ^ 148 : Nat) : Int) ∧ 2 ^ 23 ≤ 2 ^ 148 * 1000 ∧
    2 ^ 148 * 1000 < 2 ^ 22 * 2 ^ 149 ∧ expire (BitVec.ofNat 32 60000) 0x3f000000 = some (BitVec.ofNat 32 60500) := by decide +kernel

end Snek.MetalTime
