import Verif.Spec.Time
/-! # Reading the clock -/
namespace Snek.Time

/-- What holds while `snek_ticks` runs; `t0` is the time of the call. -/
structure Inv (P : Port) (t0 : Nat) (s : Cpu) (k : Nat) (kb : Nat) : Prop where
  tk : s.tocks = BitVec.ofNat 32 k
  kt : k + (if s.ovf then 1 else 0) = s.t / 2 ^ P.w
  le : t0 ≤ s.t
  b0 : t0 / 2 ^ P.w ≤ kb + 1
  hb : s.pc ≠ .cli1 → s.pc ≠ .before → s.b = BitVec.ofNat 32 kb ∧ kb ≤ k
  off : (s.pc = .before ∨ s.pc = .sei1 ∨ s.pc = .after ∨ s.pc = .sei2) → s.ie = false
  on : (s.pc = .count ∨ s.pc = .cli2) → s.ie = true
  rd : (s.pc = .cli2 ∨ s.pc = .after ∨ s.pc = .sei2 ∨ s.pc = .test ∨ s.pc = .done) → t0 ≤ s.tr ∧ s.tr ≤ s.t ∧ s.c = s.tr % 2 ^ P.w
  c2 : s.pc = .cli2 → s.tr / 2 ^ P.w = kb ∨ kb < k ∨ (s.ovf = true ∧ s.shadow = false)
  af : s.pc = .after → s.tr / 2 ^ P.w = kb ∨ kb < k
  ts : (s.pc = .sei2 ∨ s.pc = .test) → s.tr / 2 ^ P.w = kb ∨ ∃ ka, kb < ka ∧ ka ≤ k ∧ s.a = BitVec.ofNat 32 ka
  dn : s.pc = .done → s.tr / 2 ^ P.w = kb

theorem Inv.step {P : Port} {t0 : Nat} (hf : P.first = true) {s s' : Cpu} {k kb : Nat} (h : Inv P t0 s k kb) (st : Step P s s')
    (hd : s'.t < t0 + 2 ^ (P.w + 31)) : ∃ k' kb', Inv P t0 s' k' kb' := by
  have hpow : 2 ^ (P.w + 31) = 2 ^ P.w * 2 ^ 31 := Nat.pow_add ..
  have hw : 0 < 2 ^ P.w := Nat.pow_pos (by decide)
  cases st with
  | pass t' h1 h2 =>
    refine ⟨k, kb, ⟨h.tk, ?_, Nat.le_trans h.le h1, h.b0, h.hb, h.off, h.on, ?_, ?_, h.af, h.ts, h.dn⟩⟩
    · have := h.kt
      have hm : s.t / 2 ^ P.w ≤ t' / 2 ^ P.w := Nat.div_le_div_right h1
      cases ho : s.ovf <;> simp [ho] at this h2 ⊢
      · split <;> omega
      · omega
    · intro hp; obtain ⟨a, b, c⟩ := h.rd hp; exact ⟨a, Nat.le_trans b h1, c⟩
    · intro hp
      rcases h.c2 hp with h | h | h
      · exact .inl h
      · exact .inr (.inl h)
      · exact .inr (.inr ⟨by simp [h.1], h.2⟩)
  | raise => exact ⟨k, kb, ⟨h.tk, h.kt, h.le, h.b0, h.hb, h.off, h.on, h.rd, h.c2, h.af, h.ts, h.dn⟩⟩
  | tick he hs ho hp =>
    refine ⟨k + 1, kb, ⟨?_, ?_, h.le, h.b0, ?_, h.off, h.on, h.rd, ?_, ?_, ?_, h.dn⟩⟩
    · show s.tocks + 1 = _
      rw [h.tk]
      apply BitVec.eq_of_toNat_eq; simp
    · have := h.kt; rw [ho] at this; simpa using this
    · intro a b; have := h.hb a b; exact ⟨this.1, by omega⟩
    · intro hc
      have hc : s.pc = .cli2 := hc
      have := (h.hb (by rw [hc]; decide) (by rw [hc]; decide)).2
      exact .inr (.inl (by omega))
    · intro hc; rcases h.af hc with x | x
      · exact .inl x
      · exact .inr (by omega)
    · intro hc; rcases h.ts hc with x | ⟨ka, x, y, z⟩
      · exact .inl x
      · exact .inr ⟨ka, x, by omega, z⟩
  | handle he hs ho hp =>
    refine ⟨k, kb, ⟨h.tk, h.kt, h.le, h.b0, h.hb, h.off, h.on, h.rd, ?_, h.af, h.ts, h.dn⟩⟩
    intro hc
    rcases h.c2 hc with x | x | x
    · exact .inl x
    · exact .inr (.inl x)
    · rw [hp hf] at x; exact absurd x.1 (by decide)
  | nop hp =>
    refine ⟨k, kb, ⟨h.tk, h.kt, h.le, h.b0, h.hb, h.off, h.on, h.rd, ?_, h.af, h.ts, h.dn⟩⟩
    intro hc
    rcases h.c2 hc with x | x | x
    · exact .inl x
    · exact .inr (.inl x)
    · exact .inr (.inr ⟨x.1, rfl⟩)
  | main hp hnd =>
    rcases s with ⟨t, tocks, ovf, other, ie, shadow, pc, b, c, a, tr⟩
    obtain ⟨tk, kt, h0, b0, hb, off, on, rd, c2, af, ts, dn⟩ := h
    simp only at tk kt h0 hb off on rd c2 af ts dn hp hnd hd
    cases pc <;> simp only [instr] at hd ⊢
    · exact ⟨k, kb, ⟨tk, kt, h0, b0, by simp, by simp, by simp, by simp, by simp, by simp, by simp, by simp⟩⟩
    · refine ⟨k, k, ⟨tk, kt, h0, ?_, fun _ _ => ⟨tk, Nat.le_refl _⟩, fun _ => off (.inl rfl), by simp, by simp, by simp, by simp, by simp, by simp⟩⟩
      have : t0 / 2 ^ P.w ≤ t / 2 ^ P.w := Nat.div_le_div_right h0
      split at kt <;> omega
    · exact ⟨k, kb, ⟨tk, kt, h0, b0, fun _ _ => hb (by decide) (by decide), by simp, by simp, by simp, by simp, by simp, by simp, by simp⟩⟩
    · refine ⟨k, kb, ⟨tk, kt, h0, b0, fun _ _ => hb (by decide) (by decide), by simp, fun _ => on (.inl rfl), fun _ => ⟨h0, Nat.le_refl _, rfl⟩, ?_, by simp, by simp, by simp⟩⟩
      intro _
      have hk := (hb (by decide) (by decide)).2
      show t / 2 ^ P.w = kb ∨ kb < k ∨ ovf = true ∧ false = false
      by_cases hlt : kb < k
      · exact .inr (.inl hlt)
      cases ovf with
      | false => left; simp at kt; omega
      | true => exact .inr (.inr ⟨rfl, rfl⟩)
    · refine ⟨k, kb, ⟨tk, kt, h0, b0, fun _ _ => hb (by decide) (by decide), by simp, by simp, fun _ => rd (.inl rfl), by simp, ?_, by simp, by simp⟩⟩
      intro _
      rcases c2 (by rfl) with x | x | ⟨x, y⟩
      · exact .inl x
      · exact .inr x
      · have := (hp (on (.inr rfl)) y).1
        rw [x] at this; exact absurd this (by decide)
    · refine ⟨k, kb, ⟨tk, kt, h0, b0, fun _ _ => hb (by decide) (by decide), fun _ => off (.inr (.inr (.inl rfl))), by simp, fun _ => rd (.inr (.inl rfl)), by simp, by simp, ?_, by simp⟩⟩
      intro _
      rcases af (by rfl) with x | x
      · exact .inl x
      · exact .inr ⟨k, x, Nat.le_refl _, tk⟩
    · exact ⟨k, kb, ⟨tk, kt, h0, b0, fun _ _ => hb (by decide) (by decide), by simp, by simp, fun _ => rd (.inr (.inr (.inl rfl))), by simp, by simp, fun _ => ts (.inl rfl), by simp⟩⟩
    · by_cases hba : b = a
      · subst hba
        simp only [bne_self_eq_false, Bool.false_eq_true, if_false]
        refine ⟨k, kb, ⟨tk, kt, h0, b0, fun _ _ => hb (by decide) (by decide), by simp, by simp, fun _ => rd (.inr (.inr (.inr (.inl rfl)))), by simp, by simp, by simp, ?_⟩⟩
        intro _
        rcases ts (.inr rfl) with x | ⟨ka, x, y, z⟩
        · exact x
        · exfalso
          have e := (hb (by decide) (by decide)).1
          rw [z] at e
          have e := congrArg BitVec.toNat e
          simp only [BitVec.toNat_ofNat] at e
          have hka : ka ≤ t / 2 ^ P.w := by split at kt <;> omega
          have hlt : t / 2 ^ P.w < t0 / 2 ^ P.w + 2 ^ 31 + 1 := by
            have := Nat.div_add_mod t0 (2 ^ P.w)
            have hm := Nat.mod_lt t0 hw
            rw [Nat.div_lt_iff_lt_mul hw]
            rw [hpow] at hd
            generalize 2 ^ P.w = W at *
            calc t < t0 + W * 2 ^ 31 := hd
              _ ≤ (t0 / W + 2 ^ 31 + 1) * W := by
                rw [Nat.add_mul, Nat.add_mul, Nat.mul_comm (t0 / W) W, Nat.mul_comm (2 ^ 31) W]; omega
          generalize t / 2 ^ P.w = A at *
          generalize t0 / 2 ^ P.w = B at *
          omega
      · have : (b != a) = true := by simpa using hba
        simp only [this, if_true]
        exact ⟨k, kb, ⟨tk, kt, h0, b0, by simp, by simp, by simp, by simp, by simp, by simp, by simp, by simp⟩⟩
    · exact absurd rfl hnd

theorem inv_steps {P : Port} {t0 : Nat} (hf : P.first = true) {s s' : Cpu} {k kb : Nat} (h : Inv P t0 s k kb) (st : Steps P s s')
    (hd : s'.t < t0 + 2 ^ (P.w + 31)) : ∃ k' kb', Inv P t0 s' k' kb' := by
  induction st with
  | refl => exact ⟨k, kb, h⟩
  | step _ st ih =>
    rename_i s1 s2 _
    have hle : s1.t ≤ s2.t := by
      cases st with
      | pass _ h _ => exact h
      | main => unfold instr; split <;> exact Nat.le_refl _
      | _ => exact Nat.le_refl _
    obtain ⟨k1, kb1, h1⟩ := ih (by omega)
    exact h1.step hf st hd

theorem assemble {w sh T : Nat} (hw : w ≤ 32) (hs : sh ≤ w) :
    (BitVec.ofNat 32 (T / 2 ^ w) <<< (w - sh)) ||| BitVec.ofNat 32 (T % 2 ^ w / 2 ^ sh) = BitVec.ofNat 32 (T / 2 ^ sh) := by
  obtain ⟨d, rfl⟩ : ∃ d, w = sh + d := ⟨w - sh, by omega⟩
  have e1 : T / 2 ^ (sh + d) = T / 2 ^ sh / 2 ^ d := by rw [Nat.div_div_eq_div_mul, Nat.pow_add]
  have e2 : T % 2 ^ (sh + d) / 2 ^ sh = T / 2 ^ sh % 2 ^ d := by rw [Nat.pow_add, Nat.mod_mul_right_div_self]
  rw [e1, e2, Nat.add_sub_cancel_left]
  generalize T / 2 ^ sh = X
  apply BitVec.eq_of_toNat_eq
  have hl : X % 2 ^ d < 2 ^ d := Nat.mod_lt _ (Nat.pow_pos (by decide))
  have hl2 : 2 ^ d ≤ 2 ^ 32 := Nat.pow_le_pow_right (by decide) (by omega)
  have h3 : X / 2 ^ d * 2 ^ d % 2 ^ 32 = (X / 2 ^ d % 2 ^ (32 - d)) * 2 ^ d := by
    have : 2 ^ 32 = 2 ^ (32 - d) * 2 ^ d := by rw [← Nat.pow_add]; congr 1; omega
    rw [this, Nat.mul_mod_mul_right]
  rw [BitVec.toNat_or, BitVec.toNat_shiftLeft, BitVec.toNat_ofNat, BitVec.toNat_ofNat, BitVec.toNat_ofNat, Nat.shiftLeft_eq, Nat.mod_mul_mod, h3,
    Nat.mod_eq_of_lt (a := X % 2 ^ d) (by omega), Nat.mul_comm _ (2 ^ d), ← Nat.two_pow_add_eq_or_of_lt hl]
  have : 2 ^ 32 = 2 ^ d * 2 ^ (32 - d) := by rw [← Nat.pow_add]; congr 1; omega
  rw [this, Nat.mod_mul, Nat.add_comm]

/-- A call of `snek_ticks`. -/
theorem ticks_spec {P : Port} (hf : P.first = true) (hw : P.w ≤ 32) (hs : P.shift ≤ P.w) {s s' : Cpu} {r : BitVec 32} (hk : Keeps P s)
    (h : Ticks P s s' r) (hd : s'.t < s.t + 2 ^ (P.w + 31)) : Keeps P s' ∧ TimeIn P s.t s'.t r := by
  obtain ⟨k, hk1, hk2⟩ := hk
  obtain ⟨st, hpc, rfl⟩ := h
  have i : Inv P s.t { s with pc := .cli1 } k k := ⟨hk1, hk2, Nat.le_refl _, by show s.t / _ ≤ _; rw [← hk2]; split <;> omega,
    by simp, by simp, by simp, by simp, by simp, by simp, by simp, by simp⟩
  obtain ⟨k', kb, i⟩ := inv_steps hf i st hd
  refine ⟨⟨k', i.tk, i.kt⟩, s'.tr, ?_⟩
  obtain ⟨h1, h2, h3⟩ := i.rd (by rw [hpc]; simp)
  refine ⟨h1, h2, ?_⟩
  unfold result
  rw [(i.hb (by rw [hpc]; decide) (by rw [hpc]; decide)).1, h3, ← i.dn hpc]
  exact assemble hw hs

theorem steps_le {P : Port} {s s' : Cpu} (st : Steps P s s') : s.t ≤ s'.t := by
  induction st with
  | refl => exact Nat.le_refl _
  | step _ st ih =>
    refine Nat.le_trans ih ?_
    cases st with
    | pass _ h _ => exact h
    | main => unfold instr; split <;> exact Nat.le_refl _
    | _ => exact Nat.le_refl _

theorem ticks_le {P : Port} {s s' : Cpu} {r : BitVec 32} (h : Ticks P s s' r) : s.t ≤ s'.t := steps_le (s := { s with pc := .cli1 }) h.1

theorem loop_le {P : Port} {th : BitVec 32} {s s' : Cpu} {ab : Bool} (h : Loop P th s s' ab) : s.t ≤ s'.t := by
  induction h with
  | abort => exact Nat.le_refl _
  | stop h _ => exact ticks_le h
  | again h _ _ ih => exact Nat.le_trans (ticks_le h) ih

theorem diff_toInt (a n r : Nat) (h1 : a ≤ r) (h2 : r < a + n) (hn : n < 2 ^ 31) :
    0 < (BitVec.ofNat 32 a + BitVec.ofNat 32 n - BitVec.ofNat 32 r).toInt := by
  have e : BitVec.ofNat 32 a + BitVec.ofNat 32 n - BitVec.ofNat 32 r = BitVec.ofNat 32 (a + n - r) := by
    rw [BitVec.sub_eq_iff_eq_add, ← BitVec.ofNat_add, ← BitVec.ofNat_add]
    congr 1; omega
  rw [e, BitVec.toInt_eq_toNat_of_lt]
  · rw [BitVec.toNat_ofNat]; omega
  · rw [BitVec.toNat_ofNat]; omega

theorem diff_toInt_neg (a n r : Nat) (h2 : a + n ≤ r) (hn : r ≤ a + n + 2 ^ 31) :
    ¬ 0 < (BitVec.ofNat 32 a + BitVec.ofNat 32 n - BitVec.ofNat 32 r).toInt := by
  have e : BitVec.ofNat 32 a + BitVec.ofNat 32 n - BitVec.ofNat 32 r = - BitVec.ofNat 32 (r - (a + n)) := by
    rw [BitVec.sub_eq_iff_eq_add, BitVec.add_comm (-_), ← BitVec.sub_eq_add_neg, BitVec.eq_sub_iff_add_eq, ← BitVec.ofNat_add, ← BitVec.ofNat_add]
    congr 1; omega
  rw [e, BitVec.toInt_eq_toNat_cond, BitVec.toNat_neg, BitVec.toNat_ofNat]
  split <;> omega

theorem loop_spec {P : Port} (hf : P.first = true) (hw : P.w ≤ 32) (hs : P.shift ≤ P.w) {t0 n : Nat} (hn : n < 2 ^ 31) {T0 : Nat} {s s' : Cpu} {ab : Bool}
    (h : Loop P (BitVec.ofNat 32 T0 + BitVec.ofNat 32 n) s s' ab) (hT : T0 ≤ s.t / 2 ^ P.shift) (hk : Keeps P s) (hd : s'.t < t0 + 2 ^ (P.w + 31)) (h0 : t0 ≤ s.t) :
    Keeps P s' ∧ (ab = false → T0 + n ≤ s'.t / 2 ^ P.shift) := by
  induction h with
  | abort => exact ⟨hk, fun h => absurd h (by decide)⟩
  | stop h hr =>
    obtain ⟨k', T, h1, h2, rfl⟩ := ticks_spec hf hw hs hk h (by omega)
    refine ⟨k', fun _ => ?_⟩
    have a1 := Nat.div_le_div_right (c := 2 ^ P.shift) h1
    have a2 := Nat.div_le_div_right (c := 2 ^ P.shift) h2
    refine Nat.le_trans (Nat.le_of_not_lt fun hlt => hr ?_) a2
    exact diff_toInt T0 n _ (by omega) hlt hn
  | again h hr hl ih =>
    have hle := loop_le hl
    have hle' := ticks_le h
    obtain ⟨k', _⟩ := ticks_spec hf hw hs hk h (by omega)
    exact ih (Nat.le_trans hT (Nat.div_le_div_right hle')) k' hd (by omega)

end Snek.Time
