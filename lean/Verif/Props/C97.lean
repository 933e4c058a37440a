import Verif.Model.Baro
import Verif.Props.C95
/-!
# C97 The barometer

`baro()` is to give the pressure in Pa that the sensor has measured, by the formula of its data sheet (`Spec/Baro`).

Partial: only for sensors whose constants P8 and P9 are not negative. For all others the result is too large by exactly 32768 (P8) and 65536 (P9),
because the products are computed without sign: `C97_baro_sign`. The data sheet's own example has a negative P8 (`C97_violated_sign`). Also, as for `accel`, the
sensor must not change its readings during the call.
-/
namespace Snek.Baro
open Spec Spec.Baro
open Snek.I2c (Dev Bus Keeps Fix get_fix put_fix map_addr)

theorem s32_of {x : Int} (h : Spec.Baro.Int32 x) : s32 x = x := by unfold s32; unfold Spec.Baro.Int32 at h; omega
theorem u32_of {x : Int} (h0 : 0 ≤ x) (h1 : x < 2 ^ 32) : u32 x = x := by unfold u32; omega

theorem tFine_eq (c : Cal) (t : Int) (ht : 0 ≤ t ∧ t < 2 ^ 20) (h1 : 0 ≤ c.t1 ∧ c.t1 < 2 ^ 16) (h : FitsGain c t) : tFine c t = fine c t := by
  unfold tFine
  dsimp only
  rw [s32_of (x := c.t1 * 2) (by unfold Spec.Baro.Int32; omega), s32_of (x := t / 2 ^ 3 - c.t1 * 2) (by unfold Spec.Baro.Int32; omega),
    s32_of (x := t / 2 ^ 4 - c.t1) (by unfold Spec.Baro.Int32; omega), s32_of (x := (t / 2 ^ 3 - c.t1 * 2) * c.t2) h.htemp1, s32_of (x := (t / 2 ^ 4 - c.t1) * (t / 2 ^ 4 - c.t1)) h.htemp2.1,
    s32_of (x := (t / 2 ^ 4 - c.t1) * (t / 2 ^ 4 - c.t1) / 2 ^ 12 * c.t3) h.htemp2.2]
  exact s32_of h.hfine

/-- The unsigned product, shifted. -/
theorem shifted (x y : Int) (k m : Int) (hk : (2 : Int) ^ 32 = k * m) (hm : 0 < m) (hx : Spec.Baro.Int32 (x * y)) (hm8 : 4096 ≤ m) :
    s32 (u32 (x * u32 y) / m) = x * y / m + (if x * y < 0 then k else 0) := by
  unfold Spec.Baro.Int32 at hx
  have e : u32 (x * u32 y) = x * y + (if x * y < 0 then 2 ^ 32 else 0) := by
    unfold u32
    rw [Int.mul_emod, Int.emod_emod, ← Int.mul_emod]
    split <;> omega
  have hlt : 0 ≤ u32 (x * u32 y) ∧ u32 (x * u32 y) < 2 ^ 32 := by unfold u32; omega
  have hb : 0 ≤ u32 (x * u32 y) / m ∧ u32 (x * u32 y) / m < 2 ^ 31 := by
    refine ⟨Int.ediv_nonneg hlt.1 (by omega), Int.ediv_lt_of_lt_mul hm ?_⟩
    have : (2 : Int) ^ 31 * 4096 ≤ 2 ^ 31 * m := Int.mul_le_mul_of_nonneg_left hm8 (by decide)
    omega
  rw [s32_of ⟨by omega, hb.2⟩, e]
  by_cases c : x * y < 0
  · rw [if_pos c, if_pos c, hk, Int.add_mul_ediv_right _ _ (by omega)]
  · rw [if_neg c, if_neg c, Int.add_zero, Int.add_zero]

/-- Up to the gain. -/
theorem press_gain (c : Cal) (t p : Int) (h4 : -2 ^ 15 ≤ c.p4 ∧ c.p4 < 2 ^ 15) (h : FitsGain c t) :
    press c (fine c t) p =
      if gain c t = 0 then 0
      else
        let p := u32 (u32 (u32 (s32 (1048576 - p)) - offset c t / 2 ^ 12) * 3125)
        let p := if p < 0x80000000 then u32 (p * 2) / u32 (gain c t) else u32 (p / u32 (gain c t) * 2)
        u32 (s32 (s32 p + s32 (s32 (s32 (u32 (u32 c.p9 * (u32 (p / 8 * (p / 8)) / 2 ^ 13)) / 2 ^ 12) + s32 (u32 (p / 4 * u32 c.p8) / 2 ^ 13)) + c.p7) / 2 ^ 4)) := by
  have hsq : s32 (dev c t / 4 * (dev c t / 4)) = square c t := s32_of h.hsquare
  have hd : s32 (fine c t / 2 - 64000) = dev c t := s32_of h.hdev
  have ho : Spec.Baro.Int32 (c.p4 * 65536) := by unfold Spec.Baro.Int32; omega
  have hg1 : Spec.Baro.Int32 (32768 + gain1 c t) := by
    have := h.hgain1.2.2
    unfold Spec.Baro.Int32 at *
    unfold gain1
    omega
  unfold press
  dsimp only
  rw [hd, hsq, s32_of (x := square c t / 2 ^ 11 * c.p6) h.hoffset1.1, s32_of (x := dev c t * c.p5) h.hoffset1.2.1, s32_of (x := dev c t * c.p5 * 2) h.hoffset1.2.2.1,
    s32_of (x := square c t / 2 ^ 11 * c.p6 + dev c t * c.p5 * 2) h.hoffset1.2.2.2, s32_of (x := c.p4 * 2 ^ 16) ho,
    s32_of (x := (square c t / 2 ^ 11 * c.p6 + dev c t * c.p5 * 2) / 4 + c.p4 * 2 ^ 16) h.hoffset,
    s32_of (x := c.p3 * (square c t / 2 ^ 13)) h.hgain1.1, s32_of (x := c.p2 * dev c t) h.hgain1.2.1,
    s32_of (x := c.p3 * (square c t / 2 ^ 13) / 8 + c.p2 * dev c t / 2) h.hgain1.2.2]
  rw [show (c.p3 * (square c t / 2 ^ 13) / 8 + c.p2 * dev c t / 2) / 2 ^ 18 = gain1 c t from rfl, s32_of hg1, s32_of h.hgain,
    show (32768 + gain1 c t) * c.p1 / 2 ^ 15 = gain c t from rfl,
    show (square c t / 2 ^ 11 * c.p6 + dev c t * c.p5 * 2) / 4 + c.p4 * 2 ^ 16 = offset c t from rfl]

/-- What the code computes. -/
theorem press_eq (c : Cal) (t p : Int) (hp : 0 ≤ p ∧ p < 2 ^ 20) (h4 : -2 ^ 15 ≤ c.p4 ∧ c.p4 < 2 ^ 15) (h7 : -2 ^ 15 ≤ c.p7 ∧ c.p7 < 2 ^ 15) (h : Fits c t p) :
    press c (fine c t) p = pressure c t p + (if corr2 c t p < 0 then 32768 else 0) + (if corr1 c t p < 0 then 65536 else 0) := by
  have hpos := h.hpos
  rw [press_gain c t p h4 h.toFitsGain, if_neg (show ¬ gain c t = 0 by omega)]
  dsimp only
  have hof := h.hoffset
  have hr1 : u32 (u32 (u32 (s32 (1048576 - p)) - offset c t / 2 ^ 12) * 3125) = raw1 c t p := by
    have a1 : s32 (1048576 - p) = 1048576 - p := s32_of (by unfold Spec.Baro.Int32; omega)
    have a2 : u32 (1048576 - p) = 1048576 - p := u32_of (by omega) (by omega)
    rw [a1, a2]
    have := h.hraw1
    unfold raw1 at this ⊢
    unfold Spec.Baro.Int32 at hof
    have a3 : u32 (1048576 - p - offset c t / 2 ^ 12) = 1048576 - p - offset c t / 2 ^ 12 := u32_of (by omega) (by omega)
    rw [a3]
    exact u32_of (by omega) (by omega)
  have hg : gain c t < 2 ^ 31 := by
    have := h.hgain
    unfold Spec.Baro.Int32 at this
    unfold gain
    omega
  rw [hr1, u32_of (x := gain c t) (by omega) (by omega)]
  have hraw : (if raw1 c t p < 0x80000000 then u32 (raw1 c t p * 2) / gain c t else u32 (raw1 c t p / gain c t * 2)) = raw c t p := by
    have h1 := h.hraw1
    have h2 := h.hraw
    unfold raw at h2 ⊢
    by_cases c1 : raw1 c t p < 2 ^ 31
    · rw [if_pos c1, if_pos (by omega), u32_of (by omega) (by omega)]
    · rw [if_neg c1] at h2
      rw [if_neg c1, if_neg (by omega), u32_of (Int.mul_nonneg (Int.ediv_nonneg h1.1 (by omega)) (by decide)) (by omega)]
  rw [hraw]
  have r0 : 0 ≤ raw c t p := by
    have h1 := h.hraw1
    unfold raw
    split
    · exact Int.ediv_nonneg (by omega) (by omega)
    · exact Int.mul_nonneg (Int.ediv_nonneg h1.1 (by omega)) (by decide)
  have r1 := h.hraw
  have q0 : 0 ≤ raw c t p / 8 ∧ raw c t p / 8 ≤ 2 ^ 15 := by omega
  have q1 : raw c t p / 8 * (raw c t p / 8) ≤ 2 ^ 15 * 2 ^ 15 := Int.mul_le_mul q0.2 q0.2 q0.1 (by decide)
  have hq : u32 (raw c t p / 8 * (raw c t p / 8)) = raw c t p / 8 * (raw c t p / 8) := u32_of (Int.mul_nonneg q0.1 q0.1) (by omega)
  rw [hq]
  have k1 := shifted (raw c t p / 8 * (raw c t p / 8) / 2 ^ 13) c.p9 (2 ^ 20) (2 ^ 12) (by decide) (by decide)
    (by rw [Int.mul_comm]; exact h.hcorr1) (by decide)
  have k2 := shifted (raw c t p / 4) c.p8 (2 ^ 19) (2 ^ 13) (by decide) (by decide) h.hcorr2 (by decide)
  rw [Int.mul_comm _ c.p9] at k1
  rw [Int.mul_comm _ (u32 c.p9)] at k1
  rw [k1, k2, show c.p9 * (raw c t p / 8 * (raw c t p / 8) / 2 ^ 13) = corr1 c t p from rfl, show raw c t p / 4 * c.p8 = corr2 c t p from rfl]
  have hc1 := h.hcorr1
  have hc2 := h.hcorr2
  have hpr := h.hpressure
  unfold pressure at hpr ⊢
  have hg0 : ¬ gain c t = 0 := by omega
  rw [if_neg hg0] at hpr ⊢
  unfold Spec.Baro.Int32 at hc1 hc2
  generalize corr1 c t p = x at *
  generalize corr2 c t p = y at *
  generalize raw c t p = r at *
  have f1 : s32 r = r := s32_of (by unfold Spec.Baro.Int32; omega)
  rw [f1]
  have fin : ∀ a b : Int, (a = 0 ∨ a = 2 ^ 20) → (b = 0 ∨ b = 2 ^ 19) →
      u32 (s32 (r + s32 (s32 (x / 2 ^ 12 + a + (y / 2 ^ 13 + b)) + c.p7) / 2 ^ 4)) = r + (x / 4096 + y / 8192 + c.p7) / 16 + b / 16 + a / 16 := by
    intro a b ha hb
    rw [s32_of (x := x / 2 ^ 12 + a + (y / 2 ^ 13 + b)) (by unfold Spec.Baro.Int32; omega),
      s32_of (x := x / 2 ^ 12 + a + (y / 2 ^ 13 + b) + c.p7) (by unfold Spec.Baro.Int32; omega),
      s32_of (by unfold Spec.Baro.Int32; omega), u32_of (by omega) (by omega)]
    omega
  rw [fin _ _ (by by_cases c1 : x < 0 <;> simp [c1]) (by by_cases c2 : y < 0 <;> simp [c2])]
  by_cases c1 : x < 0 <;> by_cases c2 : y < 0 <;> simp [c1, c2]

/-! ## The registers -/
section
variable {env : Nat → Dev → UInt8 → UInt8} {junk : UInt8} {R : UInt8 → Prop}

theorem reads_fix (h : Keeps env R) : ∀ (l : List UInt8) (b : Bus), (∀ r ∈ l, R r) → (b.devs.map Dev.addr).Nodup → ∀ d, d ∈ b.devs → d.addr = 0x77 →
    (reads env junk l b).1 = l.map d.regs ∧ ∃ F, Fix R F ∧ (reads env junk l b).2.devs = b.devs.map F
  | [], b, _, _, d, _, _ => ⟨rfl, id, ⟨fun _ => rfl, fun _ _ _ => rfl⟩, by simp [reads]⟩
  | r :: l, b, hl, hn, d, hd, ha => by
    obtain ⟨g, F, f1, f2, _⟩ := get_fix (junk := junk) h b 0xee r (by decide) hn hd (by rw [ha]; decide) (hl r List.mem_cons_self)
    have hd' : F d ∈ (I2c.get env junk b 0xee r).2.devs := by rw [f2]; exact List.mem_map_of_mem hd
    obtain ⟨e, G, g1, g2⟩ := reads_fix h l (I2c.get env junk b 0xee r).2 (fun x hx => hl x (List.mem_cons_of_mem _ hx))
      (by rw [f2, map_addr f1.addr]; exact hn) (F d) hd' ((f1.addr d).trans ha)
    refine ⟨?_, G ∘ F, f1.comp g1, ?_⟩
    · unfold reads
      dsimp only
      rw [g, e, List.map_cons]
      congr 1
      exact List.map_congr_left fun x hx => f1.regs d x (hl x (List.mem_cons_of_mem _ hx))
    · unfold reads
      dsimp only
      rw [g2, f2, List.map_map]

/-- The registers with the constants and the readings. -/
def Used (r : UInt8) : Prop := (0x88 ≤ r.toNat ∧ r.toNat ≤ 0x9f) ∨ (0xf7 ≤ r.toNat ∧ r.toNat ≤ 0xfc)

theorem sample_eq (h : Keeps env Used) (b : Bus) (hn : (b.devs.map Dev.addr).Nodup) {d : Dev} (hd : d ∈ b.devs) (ha : d.addr = 0x77) (a : UInt8)
    (hr : a = 0xf7 ∨ a = 0xfa) :
    (sample env junk b a).1 = reading d.regs a ∧ ∃ F, Fix Used F ∧ (sample env junk b a).2.devs = b.devs.map F := by
  have hu : ∀ r ∈ [a, a + 1, a + 2], Used r := by rcases hr with rfl | rfl <;> (unfold Used; decide)
  obtain ⟨e, F, f1, f2⟩ := reads_fix (junk := junk) h [a, a + 1, a + 2] b hu hn d hd ha
  refine ⟨?_, F, f1, f2⟩
  unfold sample reading
  dsimp only
  rw [e]
  simp only [List.map_cons, List.getD_cons_zero, List.getD_cons_succ]
  have := UInt8.toNat_lt (d.regs (a + 2))
  omega

theorem rom_eq (regs : UInt8 → UInt8) : rom (romRegs.map regs) = cal regs := rfl

theorem baro_eq (h : Keeps env Used) (b : Bus) (hn : (b.devs.map Dev.addr).Nodup) (d : Dev) (hd : d ∈ b.devs) (ha : d.addr = 0x77) :
    (baro env junk b).1 = intToF (press (cal d.regs) (tFine (cal d.regs) (reading d.regs 0xfa)) (reading d.regs 0xf7)) := by
  obtain ⟨F, f1, f2, f3, _⟩ := put_fix h b 0xee 0xf4 0x3f (by decide) ⟨d, hd, by rw [ha]; decide⟩
  have fF : Fix Used F := ⟨f1, fun d r hr => by
    rw [f2 d r hr, if_neg]
    intro c
    have := c.2 ▸ hr
    revert this
    unfold Used
    decide⟩
  have hd0 : F d ∈ (I2c.put env b 0xee 0xf4 0x3f).devs := by rw [f3]; exact List.mem_map_of_mem hd
  obtain ⟨e1, G, g1, g2⟩ := reads_fix (junk := junk) h romRegs (I2c.put env b 0xee 0xf4 0x3f) (by unfold Used; decide +kernel)
    (by rw [f3, map_addr f1]; exact hn) (F d) hd0 ((f1 d).trans ha)
  have hn1 : ((reads env junk romRegs (I2c.put env b 0xee 0xf4 0x3f)).2.devs.map Dev.addr).Nodup := by
    rw [g2, map_addr g1.addr, f3, map_addr f1]; exact hn
  have hd1 : G (F d) ∈ (reads env junk romRegs (I2c.put env b 0xee 0xf4 0x3f)).2.devs := by rw [g2]; exact List.mem_map_of_mem hd0
  obtain ⟨e2, H, h1, h2⟩ := sample_eq (junk := junk) h _ hn1 hd1 ((g1.addr _).trans ((f1 d).trans ha)) 0xfa (Or.inr rfl)
  have hn2 : ((sample env junk (reads env junk romRegs (I2c.put env b 0xee 0xf4 0x3f)).2 0xfa).2.devs.map Dev.addr).Nodup := by
    rw [h2, map_addr h1.addr]; exact hn1
  have hd2 : H (G (F d)) ∈ (sample env junk (reads env junk romRegs (I2c.put env b 0xee 0xf4 0x3f)).2 0xfa).2.devs := by
    rw [h2]; exact List.mem_map_of_mem hd1
  obtain ⟨e3, _⟩ := sample_eq (junk := junk) h _ hn2 hd2 ((h1.addr _).trans ((g1.addr _).trans ((f1 d).trans ha))) 0xf7 (Or.inl rfl)
  have U : ∀ r : UInt8, (0x88 ≤ r.toNat ∧ r.toNat ≤ 0x9f) ∨ (0xf7 ≤ r.toNat ∧ r.toNat ≤ 0xfc) → Used r := fun _ h => h
  have er : romRegs.map (F d).regs = romRegs.map d.regs :=
    List.map_congr_left fun r hr => fF.regs d r (by revert r; unfold Used; decide +kernel)
  have et : reading (G (F d)).regs 0xfa = reading d.regs 0xfa := by
    unfold reading
    rw [g1.regs _ _ (U _ (by decide)), g1.regs _ _ (U _ (by decide)), g1.regs _ _ (U _ (by decide)), fF.regs _ _ (U _ (by decide)), fF.regs _ _ (U _ (by decide)),
      fF.regs _ _ (U _ (by decide))]
  have ep : reading (H (G (F d))).regs 0xf7 = reading d.regs 0xf7 := by
    unfold reading
    rw [h1.regs _ _ (U _ (by decide)), h1.regs _ _ (U _ (by decide)), h1.regs _ _ (U _ (by decide)), g1.regs _ _ (U _ (by decide)), g1.regs _ _ (U _ (by decide)),
      g1.regs _ _ (U _ (by decide)), fF.regs _ _ (U _ (by decide)), fF.regs _ _ (U _ (by decide)), fF.regs _ _ (U _ (by decide))]
  unfold baro
  dsimp only
  rw [e3, e2, e1, er, et, ep, rom_eq]

/-- If the gain is zero the result is zero, as in the data sheet: nothing is divided by it. -/
theorem C97_baro_zero (h : Keeps env Used) (b : Bus) (hn : (b.devs.map Dev.addr).Nodup) (d : Dev) (hd : d ∈ b.devs) (ha : d.addr = 0x77)
    (hf : FitsGain (cal d.regs) (reading d.regs 0xfa)) (hz : gain (cal d.regs) (reading d.regs 0xfa) = 0) : Denotes (baro env junk b).1 0 := by
  have hres := baro_eq (junk := junk) h b hn d hd ha
  have rr : ∀ a, 0 ≤ reading d.regs a ∧ reading d.regs a < 2 ^ 20 := by
    intro a
    have := UInt8.toNat_lt (d.regs a)
    have := UInt8.toNat_lt (d.regs (a + 1))
    have := UInt8.toNat_lt (d.regs (a + 2))
    unfold reading
    omega
  have us : ∀ a, 0 ≤ unsigned d.regs a ∧ unsigned d.regs a < 2 ^ 16 := by
    intro a
    have := UInt8.toNat_lt (d.regs a)
    have := UInt8.toNat_lt (d.regs (a + 1))
    unfold unsigned
    omega
  have sg : ∀ a, -2 ^ 15 ≤ signed d.regs a ∧ signed d.regs a < 2 ^ 15 := by
    intro a
    have := us a
    unfold signed
    split <;> omega
  have c1 : 0 ≤ (cal d.regs).t1 ∧ (cal d.regs).t1 < 2 ^ 16 := us 0x88
  have c4 : -2 ^ 15 ≤ (cal d.regs).p4 ∧ (cal d.regs).p4 < 2 ^ 15 := by rw [show (cal d.regs).p4 = signed d.regs 0x94 from by simp only [cal]]; have := sg 0x94; omega
  have c7 : -2 ^ 15 ≤ (cal d.regs).p7 ∧ (cal d.regs).p7 < 2 ^ 15 := by rw [show (cal d.regs).p7 = signed d.regs 0x9a from by simp only [cal]]; have := sg 0x9a; omega
  have k1 := rr 0xfa
  have k2 := rr 0xf7
  rw [hres]
  generalize reading d.regs 0xfa = t at *
  generalize reading d.regs 0xf7 = p at *
  generalize cal d.regs = c at *
  rw [tFine_eq c t k1 c1 hf, press_gain c t p c4 hf, if_pos hz]
  exact intToF_denotes ⟨by decide, by decide⟩

/-- What `baro` gives, for all constants and readings with which the formula stays in 32 bits. -/
theorem C97_baro_sign (h : Keeps env Used) (b : Bus) (hn : (b.devs.map Dev.addr).Nodup) (d : Dev) (hd : d ∈ b.devs) (ha : d.addr = 0x77)
    (hf : Fits (cal d.regs) (reading d.regs 0xfa) (reading d.regs 0xf7)) :
    Denotes (baro env junk b).1 (pressure (cal d.regs) (reading d.regs 0xfa) (reading d.regs 0xf7)
      + (if corr2 (cal d.regs) (reading d.regs 0xfa) (reading d.regs 0xf7) < 0 then 32768 else 0)
      + (if corr1 (cal d.regs) (reading d.regs 0xfa) (reading d.regs 0xf7) < 0 then 65536 else 0)) := by
  have hres := baro_eq (junk := junk) h b hn d hd ha
  have rr : ∀ a, 0 ≤ reading d.regs a ∧ reading d.regs a < 2 ^ 20 := by
    intro a
    have := UInt8.toNat_lt (d.regs a)
    have := UInt8.toNat_lt (d.regs (a + 1))
    have := UInt8.toNat_lt (d.regs (a + 2))
    unfold reading
    omega
  have us : ∀ a, 0 ≤ unsigned d.regs a ∧ unsigned d.regs a < 2 ^ 16 := by
    intro a
    have := UInt8.toNat_lt (d.regs a)
    have := UInt8.toNat_lt (d.regs (a + 1))
    unfold unsigned
    omega
  have sg : ∀ a, -2 ^ 15 ≤ signed d.regs a ∧ signed d.regs a < 2 ^ 15 := by
    intro a
    have := us a
    unfold signed
    split <;> omega
  have c1 : 0 ≤ (cal d.regs).t1 ∧ (cal d.regs).t1 < 2 ^ 16 := us 0x88
  have c4 : -2 ^ 15 ≤ (cal d.regs).p4 ∧ (cal d.regs).p4 < 2 ^ 15 := by rw [show (cal d.regs).p4 = signed d.regs 0x94 from by simp only [cal]]; have := sg 0x94; omega
  have c7 : -2 ^ 15 ≤ (cal d.regs).p7 ∧ (cal d.regs).p7 < 2 ^ 15 := by rw [show (cal d.regs).p7 = signed d.regs 0x9a from by simp only [cal]]; have := sg 0x9a; omega
  have k1 := rr 0xfa
  have k2 := rr 0xf7
  rw [hres]
  generalize reading d.regs 0xfa = t at *
  generalize reading d.regs 0xf7 = p at *
  generalize cal d.regs = c at *
  rw [tFine_eq c t k1 c1 hf.toFitsGain, press_eq c t p k2 c4 c7 hf]
  have := hf.hpressure
  refine intToF_denotes ⟨?_, ?_⟩ <;> (split <;> split <;> omega)

/-- `baro()` gives the pressure of the data sheet's formula, if P8 and P9 are not negative. -/
theorem C97_baro_partial (h : Keeps env Used) (b : Bus) (hn : (b.devs.map Dev.addr).Nodup) (d : Dev) (hd : d ∈ b.devs) (ha : d.addr = 0x77)
    (hf : Fits (cal d.regs) (reading d.regs 0xfa) (reading d.regs 0xf7)) (h8 : 0 ≤ (cal d.regs).p8) (h9 : 0 ≤ (cal d.regs).p9) :
    Denotes (baro env junk b).1 (pressure (cal d.regs) (reading d.regs 0xfa) (reading d.regs 0xf7)) := by
  have key := C97_baro_sign (junk := junk) h b hn d hd ha hf
  have r0 : 0 ≤ raw (cal d.regs) (reading d.regs 0xfa) (reading d.regs 0xf7) := by
    have h1 := hf.hraw1
    have h2 := hf.hpos
    unfold raw
    split
    · exact Int.ediv_nonneg (by omega) (by omega)
    · exact Int.mul_nonneg (Int.ediv_nonneg h1.1 (by omega)) (by decide)
  have c2 : ¬ corr2 (cal d.regs) (reading d.regs 0xfa) (reading d.regs 0xf7) < 0 := by
    have : 0 ≤ corr2 (cal d.regs) (reading d.regs 0xfa) (reading d.regs 0xf7) := Int.mul_nonneg (Int.ediv_nonneg r0 (by decide)) h8
    omega
  have c1 : ¬ corr1 (cal d.regs) (reading d.regs 0xfa) (reading d.regs 0xf7) < 0 := by
    have : 0 ≤ corr1 (cal d.regs) (reading d.regs 0xfa) (reading d.regs 0xf7) :=
      Int.mul_nonneg h9 (Int.ediv_nonneg (Int.mul_nonneg (Int.ediv_nonneg r0 (by decide)) (Int.ediv_nonneg r0 (by decide))) (by decide))
    omega
  rw [if_neg c2, if_neg c1, Int.add_zero, Int.add_zero] at key
  exact key

end

/-! ## Cases -/

/-- A sensor with the constants and readings of the data sheet's example, but for P8. -/
def example8 (lo hi : UInt8) : Dev where
  addr := 0x77
  ptr := 0
  next := id
  regs r := ([0x70, 0x6b, 0x43, 0x67, 0x18, 0xfc, 0x7d, 0x8e, 0x43, 0xd6, 0xd0, 0x0b, 0x27, 0x0b, 0x8c, 0x00, 0xf9, 0xff, 0x8c, 0x3c, lo, hi, 0x70, 0x17].getD
    (r.toNat - 0x88) 0) + (if r = 0xf7 then 0x65 else if r = 0xf8 then 0x5a else if r = 0xf9 then 0xc0 else if r = 0xfa then 0x7e else if r = 0xfb then 0xed
    else if r = 0xfc then 0x00 else 0)

example : cal (example8 0xf8 0xc6).regs = ⟨27504, 26435, -1000, 36477, -10685, 3024, 2855, 140, -7, 15500, -14600, 6000⟩ ∧
    reading (example8 0xf8 0xc6).regs 0xfa = 519888 ∧ reading (example8 0xf8 0xc6).regs 0xf7 = 415148 := by decide +kernel

theorem fits8 (lo hi : UInt8) (h : (lo = 0xf8 ∧ hi = 0xc6) ∨ (lo = 0x64 ∧ hi = 0)) :
    Fits (cal (example8 lo hi).regs) (reading (example8 lo hi).regs 0xfa) (reading (example8 lo hi).regs 0xf7) := by
  rcases h with ⟨rfl, rfl⟩ | ⟨rfl, rfl⟩ <;>
    exact ⟨⟨by decide +kernel, by decide +kernel, by decide +kernel, by decide +kernel, by decide +kernel, by decide +kernel, by decide +kernel, by decide +kernel,
      by decide +kernel⟩, by decide +kernel, by decide +kernel, by decide +kernel, by decide +kernel, by decide +kernel, by decide +kernel⟩

-- A sensor that gives nothing but zeros has gain zero.
example : FitsGain (cal fun _ => 0) (reading (fun _ => 0) 0xfa) ∧ gain (cal fun _ => 0) (reading (fun _ => 0) 0xfa) = 0 :=
  ⟨⟨by decide +kernel, by decide +kernel, by decide +kernel, by decide +kernel, by decide +kernel, by decide +kernel, by decide +kernel, by decide +kernel,
    by decide +kernel⟩, by decide +kernel⟩

-- The hypotheses are met with P8 = 100.
example : (cal (example8 0x64 0).regs).p8 = 100 ∧ 0 ≤ (cal (example8 0x64 0).regs).p9 ∧
    pressure (cal (example8 0x64 0).regs) 519888 415148 = 103480 ∧
    (baro I2c.still 0xff { devs := [example8 0x64 0], phase := .idle, time := 0 }).1 = intToF 103480 := by decide +kernel

/-- The data sheet's example: 100656 Pa by the formula, 133424 from `baro`. -/
theorem C97_violated_sign : pressure (cal (example8 0xf8 0xc6).regs) (reading (example8 0xf8 0xc6).regs 0xfa) (reading (example8 0xf8 0xc6).regs 0xf7) = 100656 ∧
    (baro I2c.still 0xff { devs := [example8 0xf8 0xc6], phase := .idle, time := 0 }).1 = intToF 133424 := by decide +kernel

end Snek.Baro
