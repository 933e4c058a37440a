import Verif.Proofs.Tone
import Verif.Proofs.AvrPins
/-!
# C84: tone
-/
namespace Snek.Tone
open Spec Spec.Tone
open Snek.Random (fToU32)

/-! ## The sine wave of the Circuit Playground -/

/-- What holds between events. -/
structure Sane (s : Dac) : Prop where
  phase : s.phase.toNat < 2 ^ 24
  step : s.step.toNat ≤ 2 ^ 24
  irq : s.irq = true ↔ s.step ≠ 0
  run : s.running = true → s.step ≠ 0

theorem sine_len : sine.length = 256 := by decide +kernel

theorem sample_eq {s : Dac} (h : Sane s) : sample s = some (shape s.phase.toNat * s.cur / 2 ^ 16) := by
  have hp := h.phase
  have hi : s.phase.toNat / 2 ^ 16 < sine.length := by rw [sine_len]; omega
  unfold sample shape
  rw [BitVec.toNat_ushiftRight, Nat.shiftRight_eq_div_pow, Nat.mod_eq_of_lt hp, List.getElem?_eq_getElem hi, List.getD_eq_getElem?_getD,
    List.getElem?_eq_getElem hi]
  rfl

/-- The phase after a sample. -/
theorem phase_add {s : Dac} (h : Sane s) : (s.phase + s.step).toNat = s.phase.toNat + s.step.toNat := by
  have := h.phase
  have := h.step
  rw [BitVec.toNat_add]
  exact Nat.mod_eq_of_lt (by omega)

theorem phase_sub {s : Dac} (h : Sane s) (hw : 2 ^ 24 ≤ s.phase.toNat + s.step.toNat) :
    (s.phase + s.step - BitVec.ofNat 32 turn).toNat = s.phase.toNat + s.step.toNat - 2 ^ 24 := by
  have h1 := phase_add h
  have := h.phase
  have := h.step
  rw [BitVec.toNat_sub, h1, BitVec.toNat_ofNat]
  unfold turn
  omega

theorem tick_playing {s : Dac} (h : Sane s) (hs : s.step ≠ 0) :
    tick s = some (advance s (shape s.phase.toNat * s.cur / 2 ^ 16)) := by
  unfold tick
  rw [sample_eq h, if_pos (by rw [h.irq.2 hs, bne_iff_ne.2 hs]; rfl)]
  rfl

theorem tick_idle {s : Dac} (h : s.step = 0) : tick s = some s := by
  unfold tick
  simp [h]

theorem advance_within {s : Dac} (h : Sane s) (d : Nat) (hw : s.phase.toNat + s.step.toNat < 2 ^ 24) :
    advance s d = { s with data := d, phase := s.phase + s.step } := by
  have h1 := phase_add h
  unfold advance
  simp only [h1, turn]
  rw [if_neg (by omega)]

theorem advance_over {s : Dac} (h : Sane s) (d : Nat) (hw : 2 ^ 24 ≤ s.phase.toNat + s.step.toNat) :
    advance s d = wrap { s with data := d, phase := s.phase + s.step } := by
  have h1 := phase_add h
  unfold advance
  simp only [h1, turn]
  rw [if_pos hw]

theorem advance_sane {s : Dac} (h : Sane s) (d : Nat) : Sane (advance s d) := by
  have h1 := phase_add h
  have hp := h.phase
  have hs := h.step
  rcases Nat.lt_or_ge (s.phase.toNat + s.step.toNat) (2 ^ 24) with hw | hw
  · rw [advance_within h d hw]
    exact ⟨by rw [h1]; exact hw, hs, h.irq, h.run⟩
  · rw [advance_over h d hw]
    unfold wrap
    simp only
    split
    · exact ⟨by show (s.phase + s.step - BitVec.ofNat 32 turn).toNat < _; rw [phase_sub h hw]; omega, hs, h.irq, h.run⟩
    · rename_i hr
      exact ⟨by show (0:BitVec 32).toNat < _; decide, by show (0:BitVec 32).toNat ≤ _; decide, by simp, fun h => absurd h hr⟩

theorem tick_sane {s : Dac} (h : Sane s) : ∃ s', tick s = some s' ∧ Sane s' := by
  by_cases hs : s.step = 0
  · exact ⟨s, tick_idle hs, h⟩
  · exact ⟨_, tick_playing h hs, advance_sane h _⟩

theorem audible_step {hz : BitVec 32} (h : Audible hz) : ∃ n r : Nat, toStep hz = some n ∧ n ≤ 2 ^ 24 ∧ f32val hz = r ∧ n = stepUnits r / 2 ^ 149 ∧ r ≤ 24000 * 2 ^ 149 := by
  obtain ⟨h1, h2, h3⟩ := h
  by_cases hn : hz.toNat < 2 ^ 31
  · rw [Nat.mod_eq_of_lt hn] at h1
    have hp : Pos hz (fmag hz.toNat) := ⟨h1, rfl⟩
    have hv : f32val hz = (fmag hz.toNat : Int) := by rw [fval_eq_spec]; exact (pos_flags hp).2.2.2
    have hr : fmag hz.toNat ≤ 24000 * 2 ^ 149 := by
      rw [hv] at h3
      have e : (24000 * 2 ^ 149 : Int) = ((24000 * 2 ^ 149 : Nat) : Int) := by decide +kernel
      rw [e] at h3
      exact Int.ofNat_le.1 h3
    obtain ⟨e1, e2⟩ := toStep_pos hp hr
    exact ⟨_, _, e1, e2, hv, rfl, hr⟩
  · have hlt := hz.isLt
    have hv : f32val hz = -(fmag (hz.toNat - 2 ^ 31) : Int) := by
      rw [fval_eq_spec]; unfold fval fneg; rw [if_pos (decide_eq_true (by omega))]
    have h0 : fmag (hz.toNat - 2 ^ 31) = 0 := by omega
    have hz0 : hz.toNat - 2 ^ 31 = 0 := by
      unfold fmag at h0
      split at h0
      · omega
      · have := Nat.mul_eq_zero.1 h0
        rcases this with h | h
        · omega
        · exact absurd h (Nat.ne_of_gt (Nat.pow_pos (by decide)))
    have e : hz = 0x80000000#32 := BitVec.eq_of_toNat_eq (by show hz.toNat = 2147483648; omega)
    subst e
    exact ⟨0, 0, by decide +kernel, by decide, by decide +kernel, by decide +kernel, Nat.zero_le _⟩

theorem setHz_zero {s : Dac} {hz : BitVec 32} (h : toStep hz = some 0) : setHz hz s = some { s with running := false } := by
  unfold setHz; rw [h]; rfl

theorem setHz_step {s : Dac} {hz : BitVec 32} {n : Nat} (h : toStep hz = some n) (hn : n ≠ 0) :
    setHz hz s = some { s with running := true, step := BitVec.ofNat 32 n, irq := true } := by
  unfold setHz; rw [h, Option.map_some, if_pos hn]

theorem setHz_sane {s : Dac} (h : Sane s) {hz : BitVec 32} (ha : Audible hz) : ∃ s', setHz hz s = some s' ∧ Sane s' := by
  obtain ⟨n, r, h1, h2, -⟩ := audible_step ha
  by_cases hn : n = 0
  · exact ⟨_, setHz_zero (hn ▸ h1), ⟨h.phase, h.step, h.irq, fun h => absurd h (by simp)⟩⟩
  · have e : (BitVec.ofNat 32 n).toNat = n := by rw [BitVec.toNat_ofNat, Nat.mod_eq_of_lt (by omega)]
    have hne : BitVec.ofNat 32 n ≠ 0 := fun h0 => by rw [h0] at e; exact hn e.symm
    exact ⟨_, setHz_step h1 hn, ⟨h.phase, by rw [e]; exact h2, ⟨fun _ => hne, fun _ => rfl⟩, fun _ => hne⟩⟩

theorem setLevel_sane {s : Dac} (h : Sane s) (v : Nat) : Sane (setLevel v s) := by
  unfold setLevel
  simp only
  split <;> exact ⟨h.phase, h.step, h.irq, h.run⟩

theorem event_sane {s : Dac} (h : Sane s) (e : Ev) (he : ∀ hz, e = .tone hz → Audible hz) : ∃ s', event e s = some s' ∧ Sane s' := by
  cases e with
  | tick => exact tick_sane h
  | tone hz => exact setHz_sane h (he hz rfl)
  | level v => exact ⟨_, rfl, setLevel_sane h _⟩

theorem events_sane : ∀ (l : List Ev) {s : Dac}, Sane s → (∀ hz, Ev.tone hz ∈ l → Audible hz) → ∃ s', events l s = some s' ∧ Sane s'
  | [], s, h, _ => ⟨s, rfl, h⟩
  | e :: l, s, h, ha => by
    obtain ⟨s1, h1, h2⟩ := event_sane h e (fun hz he => ha hz (by simp [he]))
    obtain ⟨s2, h3, h4⟩ := events_sane l h2 (fun hz he => ha hz (by simp [he]))
    exact ⟨s2, by rw [events, h1]; exact h3, h4⟩

theorem sane0 : Sane dac0 := ⟨by decide, by decide, by decide, by decide⟩

/-- Whatever frequencies from 0 to the sample rate a program plays and whenever it changes them and the level of the pin, no access is outside the table and no
conversion is undefined. -/
theorem C84_safe_partial (l : List Ev) (h : ∀ hz, Ev.tone hz ∈ l → Audible hz) : ∃ s, events l dac0 = some s ∧ s.phase.toNat < 2 ^ 24 := by
  obtain ⟨s, h1, h2⟩ := events_sane l sane0 h
  exact ⟨s, h1, h2.phase⟩

/-- The level a wave has at a sample: that of its beginning. -/
theorem ticks_playing {s : Dac} (h : Sane s) (hr : s.running = true) : ∀ n,
    ∃ s', ticks n s = some s' ∧ Sane s' ∧ s'.running = true ∧ s'.step = s.step ∧ s'.power = s.power ∧
      s'.phase.toNat = (s.phase.toNat + n * s.step.toNat) % 2 ^ 24 ∧
      s'.cur = (if s.phase.toNat + n * s.step.toNat < 2 ^ 24 then s.cur else s.power) ∧
      (∀ m, n = m + 1 → s'.data = shape (s.phase.toNat + m * s.step.toNat) *
        (if s.phase.toNat + m * s.step.toNat < 2 ^ 24 then s.cur else s.power) / 2 ^ 16)
  | 0 => ⟨s, rfl, h, hr, rfl, rfl, by rw [Nat.zero_mul, Nat.add_zero, Nat.mod_eq_of_lt h.phase], by simp [h.phase], by intro m hm; omega⟩
  | n + 1 => by
    obtain ⟨t, h1, h2, h3, h5, h6, h7, h8, -⟩ := ticks_playing h hr n
    have hs := h.run hr
    have hs' : t.step ≠ 0 := by rw [h5]; exact hs
    have hsh : shape t.phase.toNat = shape (s.phase.toNat + n * s.step.toNat) := by
      unfold shape; rw [h7, Nat.mod_mod]
    have hd : shape t.phase.toNat * t.cur / 2 ^ 16 = shape (s.phase.toNat + n * s.step.toNat) *
        (if s.phase.toNat + n * s.step.toNat < 2 ^ 24 then s.cur else s.power) / 2 ^ 16 := by rw [hsh, h8]
    have hmul : (n + 1) * s.step.toNat = n * s.step.toNat + s.step.toNat := Nat.succ_mul ..
    rw [hmul]
    refine ⟨advance t (shape t.phase.toNat * t.cur / 2 ^ 16), ?_, advance_sane h2 _, ?_⟩
    · rw [ticks, h1]; exact tick_playing h2 hs'
    rw [hd]
    have hst := h.step
    have hph := h2.phase
    have hph0 := h.phase
    rcases Nat.lt_or_ge (t.phase.toNat + t.step.toNat) (2 ^ 24) with hw | hw
    · rw [advance_within h2 _ hw]
      have hp' : (t.phase + t.step).toNat = (s.phase.toNat + (n * s.step.toNat + s.step.toNat)) % 2 ^ 24 := by
        rw [phase_add h2]
        rw [h5, h7] at hw ⊢
        omega
      refine ⟨h3, h5, h6, hp', ?_, ?_⟩
      · show t.cur = _
        rw [h8]
        have hpos : 0 < s.step.toNat := by
          rcases Nat.eq_zero_or_pos s.step.toNat with hz | hz
          · exact absurd (BitVec.eq_of_toNat_eq (by rw [hz]; rfl)) hs
          · exact hz
        rw [h5, h7] at hw
        generalize n * s.step.toNat = x at *
        split
        · split
          · rfl
          · omega
        · split
          · omega
          · rfl
      · intro m hm
        have : m = n := by omega
        subst this; rfl
    · rw [advance_over h2 _ hw]
      have hp' : (t.phase + t.step - BitVec.ofNat 32 turn).toNat = (s.phase.toNat + (n * s.step.toNat + s.step.toNat)) % 2 ^ 24 := by
        rw [phase_sub h2 hw]
        rw [h5, h7] at hw ⊢
        omega
      unfold wrap
      simp only [h3, if_true]
      refine ⟨by simp, h5, h6, hp', ?_, ?_⟩
      · show t.power = _
        rw [h6, if_neg]
        rw [h5, h7] at hw
        generalize n * s.step.toNat = x at *
        omega
      · intro m hm
        have : m = n := by omega
        subst this; rfl

/-- While a tone plays, the output is the table's wave: at the `n`th sample from now its value at `phase + n * step`, in units of a turn of 2^24, times the level of
the pin — the level it had when the wave began, so that a change of level waits for the end of a wave. -/
theorem C84_wave {l : List Ev} (h : ∀ hz, Ev.tone hz ∈ l → Audible hz) {s : Dac} (he : events l dac0 = some s) (hr : s.running = true) (n : Nat) :
    ∃ s', ticks (n + 1) s = some s' ∧ s'.step = s.step ∧ s'.phase.toNat = (s.phase.toNat + (n + 1) * s.step.toNat) % 2 ^ 24 ∧
      s'.data = shape (s.phase.toNat + n * s.step.toNat) * (if s.phase.toNat + n * s.step.toNat < 2 ^ 24 then s.cur else s.power) / 2 ^ 16 := by
  obtain ⟨s1, h1, h2⟩ := events_sane l sane0 h
  rw [he] at h1
  cases h1
  obtain ⟨s', g1, -, -, g5, -, g7, -, g9⟩ := ticks_playing h2 hr (n + 1)
  exact ⟨s', g1, g5, g7, g9 n rfl⟩

theorem cast_near {n r U : Nat} {V : Int} (hV : (U : Int) = V)
    (h : 16777216 ^ 2 * (n * (24000 * U)) ≤ 16777217 ^ 2 * (16777216 * r) ∧ 16777215 ^ 2 * (16777216 * r) < 16777216 ^ 2 * ((n + 1) * (24000 * U))) :
    (2 ^ 24) ^ 2 * (n * (24000 * V) : Int) ≤ (2 ^ 24 + 1) ^ 2 * (2 ^ 24 * (r : Int)) ∧
      (2 ^ 24 - 1) ^ 2 * (2 ^ 24 * (r : Int)) < (2 ^ 24) ^ 2 * ((n + 1) * (24000 * V) : Int) := by
  subst hV
  obtain ⟨a, b⟩ := h
  have a' := Int.ofNat_le.2 a
  have b' := Int.ofNat_lt.2 b
  simp only [Int.natCast_mul, Int.natCast_add] at a' b'
  exact ⟨a', b'⟩

/-- The step `tone` sets. In `n` samples the wave makes `n * step / 2^24` turns (`C84_wave`); `2^24 * f / 24000` would be exact. It differs by the rounding of two operations and is
cut to an integer; a turn is 2^24, so this is less than a hertz in 500. -/
theorem C84_pitch (s : Dac) {hz : BitVec 32} (h : Audible hz) : ∃ s' n, setHz hz s = some s' ∧ s'.phase = s.phase ∧
    (n ≠ 0 → s'.running = true ∧ s'.step.toNat = n) ∧ (n = 0 → s'.running = false ∧ s'.step = s.step) ∧
    (2 ^ 24) ^ 2 * (n * (24000 * 2 ^ 149) : Int) ≤ (2 ^ 24 + 1) ^ 2 * (2 ^ 24 * f32val hz) ∧
    (2 ^ 24 - 1) ^ 2 * (2 ^ 24 * f32val hz) < (2 ^ 24) ^ 2 * ((n + 1) * (24000 * 2 ^ 149) : Int) := by
  obtain ⟨n, r, h1, h2, h3, h4, h5⟩ := audible_step h
  have near := step_near h5
  rw [← h4] at near
  have near' : (2 ^ 24) ^ 2 * (n * (24000 * 2 ^ 149) : Int) ≤ (2 ^ 24 + 1) ^ 2 * (2 ^ 24 * f32val hz) ∧
      (2 ^ 24 - 1) ^ 2 * (2 ^ 24 * f32val hz) < (2 ^ 24) ^ 2 * ((n + 1) * (24000 * 2 ^ 149) : Int) := by
    rw [h3]
    exact cast_near (U := 2 ^ 149) (by decide +kernel) near
  by_cases hn : n = 0
  · exact ⟨_, n, setHz_zero (hn ▸ h1), rfl, fun h => absurd hn h, fun _ => ⟨rfl, rfl⟩, near'⟩
  · refine ⟨_, n, setHz_step h1 hn, rfl, fun _ => ⟨rfl, ?_⟩, fun h => absurd h hn, near'⟩
    show (BitVec.ofNat 32 n).toNat = n
    rw [BitVec.toNat_ofNat, Nat.mod_eq_of_lt (by omega)]

theorem ticks_stopping {s : Dac} (h : Sane s) (hr : s.running = false) (hs : s.step ≠ 0) : ∀ n, s.phase.toNat + n * s.step.toNat < 2 ^ 24 →
    ∃ s', ticks n s = some s' ∧ Sane s' ∧ s'.running = false ∧ s'.step = s.step ∧ s'.power = s.power ∧ s'.cur = s.cur ∧
      s'.phase.toNat = s.phase.toNat + n * s.step.toNat ∧ (∀ m, n = m + 1 → s'.data = shape (s.phase.toNat + m * s.step.toNat) * s.cur / 2 ^ 16)
  | 0, _ => ⟨s, rfl, h, hr, rfl, rfl, rfl, by simp, by intro m hm; omega⟩
  | n + 1, hlt => by
    have hmul : (n + 1) * s.step.toNat = n * s.step.toNat + s.step.toNat := Nat.succ_mul ..
    rw [hmul] at hlt ⊢
    obtain ⟨t, h1, h2, h3, h4, h5, h6, h7, -⟩ := ticks_stopping h hr hs n (by omega)
    have hs' : t.step ≠ 0 := by rw [h4]; exact hs
    have hw : t.phase.toNat + t.step.toNat < 2 ^ 24 := by rw [h4, h7]; omega
    refine ⟨_, by rw [ticks, h1]; exact tick_playing h2 hs', advance_sane h2 _, ?_⟩
    rw [advance_within h2 _ hw]
    refine ⟨h3, h4, h5, h6, ?_, ?_⟩
    · show (t.phase + t.step).toNat = _
      rw [phase_add h2, h7, h4]; omega
    · intro m hm
      have : m = n := by omega
      subst this
      show shape t.phase.toNat * t.cur / 2 ^ 16 = _
      rw [h7, h6]

theorem ticks_add (s : Dac) (a : Nat) : ∀ b, ticks (a + b) s = (ticks a s).bind (ticks b)
  | 0 => by cases ticks a s <;> rfl
  | b + 1 => by
    show (ticks (a + b) s).bind tick = _
    rw [ticks_add s a b]
    cases ticks a s <;> rfl

theorem ticks_idle {s : Dac} (h : s.step = 0) : ∀ n, ticks n s = some s
  | 0 => rfl
  | n + 1 => by rw [ticks, ticks_idle h n]; exact tick_idle h

/-- After `tone(0)` the wave goes on to its end, at most a turn, and stops there: from then on the output does not change. -/
theorem C84_stop {l : List Ev} (h : ∀ hz, Ev.tone hz ∈ l → Audible hz) {s : Dac} (he : events l dac0 = some s) (hr : s.running = false) (hs : s.step ≠ 0) :
    ∃ m, m * s.step.toNat < 2 ^ 24 ∧ s.phase.toNat + m * s.step.toNat < 2 ^ 24 ∧ 2 ^ 24 ≤ s.phase.toNat + (m + 1) * s.step.toNat ∧
      (∀ n, n < m → ∃ s', ticks (n + 1) s = some s' ∧ s'.data = shape (s.phase.toNat + n * s.step.toNat) * s.cur / 2 ^ 16) ∧
      ∀ n, m < n → ∃ s', ticks n s = some s' ∧ s'.step = 0 ∧ s'.irq = false ∧ s'.phase = 0 ∧ s'.cur = s.power ∧
        s'.data = shape (s.phase.toNat + m * s.step.toNat) * s.cur / 2 ^ 16 := by
  obtain ⟨s1, h1, h2⟩ := events_sane l sane0 h
  rw [he] at h1
  cases h1
  have hp := h2.phase
  have hpos : 0 < s.step.toNat := by
    rcases Nat.eq_zero_or_pos s.step.toNat with hz | hz
    · exact absurd (BitVec.eq_of_toNat_eq (by rw [hz]; rfl)) hs
    · exact hz
  have d1 := Nat.div_mul_le_self (2 ^ 24 - 1 - s.phase.toNat) s.step.toNat
  have d2 := Nat.lt_mul_div_succ (2 ^ 24 - 1 - s.phase.toNat) hpos
  rw [Nat.mul_comm] at d2
  generalize (2 ^ 24 - 1 - s.phase.toNat) / s.step.toNat = m at d1 d2
  refine ⟨m, by omega, by omega, by omega, ?_, ?_⟩
  · intro n hn
    have : (n + 1) * s.step.toNat ≤ m * s.step.toNat := Nat.mul_le_mul_right _ hn
    obtain ⟨t, g1, -, -, -, -, -, -, g⟩ := ticks_stopping h2 hr hs (n + 1) (by omega)
    exact ⟨t, g1, g n rfl⟩
  · intro n hn
    obtain ⟨t, g1, g2, g3, g4, g5, g6, g7, -⟩ := ticks_stopping h2 hr hs m (by omega)
    obtain ⟨k, rfl⟩ : ∃ k, n = m + 1 + k := ⟨n - (m + 1), by omega⟩
    have hmul : (m + 1) * s.step.toNat = m * s.step.toNat + s.step.toNat := Nat.succ_mul ..
    have hw : 2 ^ 24 ≤ t.phase.toNat + t.step.toNat := by rw [g7, g4]; omega
    have hstep : ticks (m + 1) s = some (advance t (shape t.phase.toNat * t.cur / 2 ^ 16)) := by
      rw [ticks, g1]; exact tick_playing g2 (by rw [g4]; exact hs)
    rw [advance_over g2 _ hw] at hstep
    unfold wrap at hstep
    simp only [g3, Bool.false_eq_true, if_false] at hstep
    rw [ticks_add, hstep]
    refine ⟨_, ticks_idle rfl k, rfl, rfl, rfl, g5, ?_⟩
    show shape t.phase.toNat * t.cur / 2 ^ 16 = _
    rw [g7, g6]

/-- The table is a wave: from 0 up to its middle and down again, and its second differences are those of an offset sine of 256 steps and amplitude 32767
(2 - 2 cos (2π/256) = 0.00060236), to the rounding of the values. -/
theorem C84_shape : sine.length = 256 ∧ sine.getD 0 0 = 0 ∧ sine.getD 128 0 = 65534 ∧
    (∀ i, i < 128 → sine.getD i 0 < sine.getD (i + 1) 0 ∧ sine.getD (i + 129) 0 < sine.getD (i + 128) 0) ∧
    ∀ i, i < 256 → ((sine.getD ((i + 1) % 256) 0 + sine.getD ((i + 255) % 256) 0 - 2 * sine.getD i 0 : Int) * 100000000 + 60236 * (sine.getD i 0 - 32767)).natAbs ≤ 175000000 := by
  decide +kernel

/-- For a frequency of at most 93 Hz, what remains is at most 9 of 65535. -/
theorem C84_rest {phase step cur : Nat} (h1 : phase < 2 ^ 24) (h2 : 2 ^ 24 ≤ phase + step) (h3 : step ≤ 2 ^ 16) (hc : cur < 2 ^ 16) : shape phase * cur / 2 ^ 16 ≤ 9 := by
  have hs : shape phase = 9 := by
    unfold shape
    rw [Nat.mod_eq_of_lt h1, show phase / 2 ^ 16 = 255 by omega]
    decide +kernel
  rw [hs]
  omega

/-- When no tone plays the output is the level of the pin. -/
theorem C84_level (s : Dac) (h : s.step = 0) (v : BitVec 16) (n : Nat) : ∃ s', ticks n (setLevel v.toNat s) = some s' ∧ s'.data = v.toNat := by
  have e : setLevel v.toNat s = { s with power := v.toNat, cur := v.toNat, data := v.toNat } := by
    unfold setLevel; simp only; rw [if_pos h]
  rw [e]
  exact ⟨_, ticks_idle (s := { s with power := v.toNat, cur := v.toNat, data := v.toNat }) h n, rfl⟩

/-! ## The timers -/

theorem pick_ok {limit first last lo : Nat} {shift D : Nat → Nat} (hD : ∀ c, c < last → first ≤ c → D (c + 1) = D c * 2 ^ shift c)
    (hlo : ∀ c v, limit < v → lo ≤ v / 2 ^ shift c) {v0 : Nat} : ∀ (n cs v : Nat), last < cs + n → first ≤ cs → cs ≤ last → D cs * v ≤ v0 → v0 < D cs * (v + 1) →
    (pick limit last shift n cs v = none ∧ D last * (limit + 1) ≤ v0) ∨
    ∃ c w, pick limit last shift n cs v = some (c, w) ∧ w ≤ limit ∧ D c * w ≤ v0 ∧ v0 < D c * (w + 1) ∧ c ≤ last ∧ (c = cs ∧ w = v ∨ lo ≤ w)
  | 0, _, _, h1, _, h2, _, _ => by omega
  | n + 1, cs, v, h1, hf, h2, h3, h4 => by
    rw [pick]
    by_cases hv : limit < v
    · rw [if_pos hv]
      by_cases hc : last < cs + 1
      · rw [if_pos hc]
        have : cs = last := by omega
        subst this
        exact .inl ⟨rfl, Nat.le_trans (Nat.mul_le_mul_left _ hv) h3⟩
      · rw [if_neg hc, Nat.shiftRight_eq_div_pow]
        have e := hD cs (by omega) hf
        have hk : 0 < 2 ^ shift cs := Nat.pow_pos (by decide)
        rcases pick_ok hD hlo n (cs + 1) (v / 2 ^ shift cs) (by omega) (by omega) (by omega)
          (by rw [e, Nat.mul_assoc]; exact Nat.le_trans (Nat.mul_le_mul_left _ (Nat.mul_div_le ..)) h3)
          (by rw [e, Nat.mul_assoc]; exact Nat.lt_of_lt_of_le h4 (Nat.mul_le_mul_left _ (Nat.lt_mul_div_succ v hk))) with h | ⟨c, w, g1, g2, g3, g4, g5, g6⟩
        · exact .inl h
        · refine .inr ⟨c, w, g1, g2, g3, g4, g5, .inr ?_⟩
          rcases g6 with ⟨-, rfl⟩ | g
          · exact hlo _ _ hv
          · exact g
    · rw [if_neg hv]
      exact .inr ⟨cs, v, rfl, by omega, h3, h4, h2, .inl ⟨rfl, rfl⟩⟩

theorem pick8_spec (v : Nat) : (pick8 v = none ∧ 257 * 1024 ≤ v) ∨ ∃ cs w, pick8 v = some (cs, w) ∧ w ≤ 256 ∧
    div8 cs * w ≤ v ∧ v < div8 cs * (w + 1) ∧ (div8 cs = 1 ∧ w = v ∨ 32 ≤ w) := by
  rcases pick_ok (limit := 256) (first := 1) (last := 5) (lo := 32) (D := div8) (shift := fun cs => if cs < 3 then 3 else 2) (v0 := v) (by decide)
    (by intro c v h; show _ ≤ v / 2 ^ (if _ then _ else _); split <;> omega) 8 1 v (by decide) (by decide) (by decide) (by simp [div8]) (by simp [div8])
    with ⟨h1, h2⟩ | ⟨c, w, h1, h2, h3, h4, h5, h6⟩
  · exact .inl ⟨h1, by simp only [div8] at h2; omega⟩
  · refine .inr ⟨c, w, h1, h2, h3, h4, ?_⟩
    rcases h6 with ⟨rfl, rfl⟩ | h
    · exact .inl ⟨rfl, rfl⟩
    · exact .inr h

theorem pick16_spec (v : Nat) : (pick16 v = none ∧ 65536 * 1024 ≤ v) ∨ ∃ cs w, pick16 v = some (cs, w) ∧ w ≤ 65535 ∧
    div16 cs * w ≤ v ∧ v < div16 cs * (w + 1) ∧ (div16 cs = 1 ∧ w = v ∨ 16384 ≤ w) := by
  rcases pick_ok (limit := 0xffff) (first := 0) (last := 7) (lo := 16384) (D := div16) (shift := fun cs => if 3 < cs then 2 else 1) (v0 := v) (by decide)
    (by intro c v h; show _ ≤ v / 2 ^ (if _ then _ else _); split <;> omega) 8 0 v (by decide) (by decide) (by decide) (by simp [div16]) (by simp [div16])
    with ⟨h1, h2⟩ | ⟨c, w, h1, h2, h3, h4, h5, h6⟩
  · exact .inl ⟨h1, by simp only [div16] at h2; omega⟩
  · refine .inr ⟨c, w, h1, h2, h3, h4, ?_⟩
    rcases h6 with ⟨rfl, rfl⟩ | h
    · exact .inl ⟨rfl, rfl⟩
    · exact .inr h

/-- The bounds of `Pitch` from those of the divisor. -/
theorem pitch_aux {C k v d w F U : Nat} {V f : Int} (hk : 0 < k) (hV : (U : Int) = V) (hf : (F : Int) = f) (h1 : 16777216 * (v * F) ≤ 16777217 * (C * U))
    (h2 : 16777215 * (C * U) < 16777216 * ((v + 1) * F)) (h3 : d * w ≤ v) (h4 : v < d * (w + 1)) (h5 : d = 1 ∧ w = v ∨ k ≤ w) :
    2 ^ 24 * (((d * w : Nat) : Int) * f) ≤ (2 ^ 24 + 1) * (C * V) ∧ (2 ^ 24 - 1) * (k * (C * V)) < 2 ^ 24 * ((((d * w : Nat) : Int) * (k + 1) + k) * f) := by
  subst hV hf
  have e1 : d * w * F ≤ v * F := Nat.mul_le_mul_right _ h3
  have e2 : k * (v + 1) ≤ d * w * (k + 1) + k := by
    rcases h5 with ⟨rfl, rfl⟩ | h
    · rw [Nat.one_mul, Nat.mul_add, Nat.mul_add, Nat.mul_comm k w]; omega
    · have a : k * (v + 1) ≤ k * (d * (w + 1)) := Nat.mul_le_mul_left _ h4
      have b : d * k ≤ d * w := Nat.mul_le_mul_left _ h
      have c : k * (d * (w + 1)) = d * w * k + d * k := by
        rw [Nat.mul_add, Nat.mul_one, Nat.mul_add, Nat.mul_comm k (d * w), Nat.mul_comm k d]
      have e : d * w * (k + 1) = d * w * k + d * w := Nat.mul_succ ..
      omega
  have e3 : k * (v + 1) * F ≤ (d * w * (k + 1) + k) * F := Nat.mul_le_mul_right _ e2
  have e4 : k * (16777215 * (C * U)) < k * (16777216 * ((v + 1) * F)) := Nat.mul_lt_mul_of_pos_left h2 hk
  have e5 : k * (16777216 * ((v + 1) * F)) = 16777216 * (k * (v + 1) * F) := by rw [Nat.mul_left_comm, Nat.mul_assoc]
  have e6 : k * (16777215 * (C * U)) = 16777215 * (k * (C * U)) := Nat.mul_left_comm ..
  have a : 16777216 * (d * w * F) ≤ 16777217 * (C * U) := by omega
  have b : 16777215 * (k * (C * U)) < 16777216 * ((d * w * (k + 1) + k) * F) := by omega
  have a' := Int.ofNat_le.2 a
  have b' := Int.ofNat_lt.2 b
  simp only [Int.natCast_mul, Int.natCast_add] at a' b' ⊢
  exact ⟨a', b'⟩

/-! ### ATmega328P -/

/-- Calls that leave every pin fully on or off. -/
def Whole : Call8 → Prop
  | .pin (.setpower v) => Gpio.powerByte v = some 0 ∨ Gpio.powerByte v = some 255
  | _ => True

/-- What holds then: the compare register of the speaker's pin is 0. -/
structure Inv8 (s : St8) : Prop where
  ocr : s.g.r .ocr0b = 0
  pow : ∀ q, s.g.power q = 0 ∨ s.g.power q = 255

/-- What the pin functions leave alone. -/
structure Keeps (s s' : Gpio.St) : Prop where
  ocrb : s'.r .ocr0b = s.r .ocr0b
  ocra : s'.r .ocr0a = s.r .ocr0a
  b0 : (s'.r .tccr0a).getLsbD 0 = (s.r .tccr0a).getLsbD 0
  b1 : (s'.r .tccr0a).getLsbD 1 = (s.r .tccr0a).getLsbD 1
  b4 : (s'.r .tccr0a).getLsbD 4 = (s.r .tccr0a).getLsbD 4
  b5 : (s'.r .tccr0a).getLsbD 5 = true → (s.r .tccr0a).getLsbD 5 = true
  ddr : (s.r .ddrd).getLsbD 5 = true → (s'.r .ddrd).getLsbD 5 = true

theorem Keeps.refl (s : Gpio.St) : Keeps s s := ⟨rfl, rfl, rfl, rfl, rfl, id, id⟩

theorem Keeps.trans {a b c : Gpio.St} (h : Keeps a b) (h' : Keeps b c) : Keeps a c :=
  ⟨h'.ocrb.trans h.ocrb, h'.ocra.trans h.ocra, h'.b0.trans h.b0, h'.b1.trans h.b1, h'.b4.trans h.b4, fun x => h.b5 (h'.b5 x), fun x => h'.ddr (h.ddr x)⟩

/-- Other variables do not matter. -/
theorem Keeps.of_r {s s' : Gpio.St} (h : s'.r = s.r) : Keeps s s' := by
  rcases s with ⟨r, _, _, _, _, _, _⟩
  rcases s' with ⟨r', _, _, _, _, _, _⟩
  simp only at h
  subst h
  exact ⟨rfl, rfl, rfl, rfl, rfl, id, id⟩

theorem Keeps.after {s s1 s' : Gpio.St} (k : Keeps s1 s') (h : s1.r = s.r) : Keeps s s' := (Keeps.of_r h).trans k

/-- Another register. -/
theorem keeps_set (s : Gpio.St) (g : Gpio.Reg) (v : BitVec 8) (h : g ≠ .ocr0a ∧ g ≠ .ocr0b ∧ g ≠ .tccr0a) (hd : g ≠ .ddrd) : Keeps s (s.set g v) := by
  have e : ∀ g', g' ≠ g → (s.set g v).r g' = s.r g' := fun g' hg => if_neg hg
  exact ⟨e _ (Ne.symm h.2.1), e _ (Ne.symm h.1), by rw [e _ (Ne.symm h.2.2)], by rw [e _ (Ne.symm h.2.2)], by rw [e _ (Ne.symm h.2.2)],
    by rw [e _ (Ne.symm h.2.2)]; exact id, by rw [e _ (Ne.symm hd)]; exact id⟩

theorem keeps_port (s : Gpio.St) (p : Nat) (v : BitVec 8) : Keeps s (s.set (Gpio.portReg p) v) := by
  unfold Gpio.portReg
  split
  · exact keeps_set _ _ _ (by decide) (by decide)
  · split <;> exact keeps_set _ _ _ (by decide) (by decide)

theorem keeps_dirOut (s : Gpio.St) (p : Nat) : Keeps s (Gpio.setDirOut p s) := by
  unfold Gpio.setDirOut Gpio.ddrReg
  split
  · refine ⟨rfl, rfl, rfl, rfl, rfl, id, fun h => ?_⟩
    show (s.r .ddrd ||| Gpio.bit p).getLsbD 5 = true
    rw [BitVec.getLsbD_or, h]; rfl
  · split <;> exact keeps_set _ _ _ (by decide) (by decide)

theorem keeps_dirIn (s : Gpio.St) (p : Nat) (hp : p ≠ 5) : Keeps s (Gpio.setDirIn p s) := by
  have h1 : Keeps s (s.set (Gpio.ddrReg p) (s.r (Gpio.ddrReg p) &&& ~~~ Gpio.bit p)) := by
    unfold Gpio.ddrReg
    split
    · rename_i h8
      refine ⟨rfl, rfl, rfl, rfl, rfl, id, fun h => ?_⟩
      show (s.r .ddrd &&& ~~~ Gpio.bit p).getLsbD 5 = true
      have hb : (Gpio.bit p).getLsbD 5 = false := by
        unfold Gpio.bit
        rw [if_pos h8]
        have : p = 0 ∨ p = 1 ∨ p = 2 ∨ p = 3 ∨ p = 4 ∨ p = 6 ∨ p = 7 := by omega
        rcases this with rfl | rfl | rfl | rfl | rfl | rfl | rfl <;> decide
      rw [BitVec.getLsbD_and, BitVec.getLsbD_not, h, hb]; rfl
    · split <;> exact keeps_set _ _ _ (by decide) (by decide)
  unfold Gpio.setDirIn
  simp only
  split <;> exact h1.trans (keeps_port _ _ _)

/-- Disconnecting a pin from its timer. -/
theorem keeps_tcc (s : Gpio.St) {p : Nat} {t : Gpio.Reg} (h : Gpio.tccReg p = some t) : Keeps s (s.set t (s.r t &&& ~~~ Gpio.tccVal p)) := by
  unfold Gpio.tccReg at h
  split at h <;> cases h
  case h_2 | h_3 =>
    refine ⟨rfl, rfl, ?_, ?_, ?_, ?_, id⟩ <;> simp [Gpio.St.set, Gpio.tccVal]
  all_goals exact keeps_set _ _ _ (by decide) (by decide)

theorem keeps_setOut {s s' : Gpio.St} {p : Nat} (hp : s.power p = 0 ∨ s.power p = 255) (h : Gpio.setOut p s = some s') : Keeps s s' ∧ s'.power = s.power := by
  have hv : (if Gpio.isOn s p then s.power p else 0) = 0 ∨ (if Gpio.isOn s p then s.power p else 0) = 255 := by
    split
    · exact hp
    · exact .inl rfl
  unfold Gpio.setOut at h
  simp only at h
  generalize (if Gpio.isOn s p then s.power p else 0) = v at h hv
  have hport : ∀ t : Gpio.St, Keeps t (if v ≠ 0 then t.set (Gpio.portReg p) (t.r (Gpio.portReg p) ||| Gpio.bit p)
      else t.set (Gpio.portReg p) (t.r (Gpio.portReg p) &&& ~~~ Gpio.bit p)) := by
    intro t; split <;> exact keeps_port _ _ _
  have hpow : ∀ t : Gpio.St, (if v ≠ 0 then t.set (Gpio.portReg p) (t.r (Gpio.portReg p) ||| Gpio.bit p)
      else t.set (Gpio.portReg p) (t.r (Gpio.portReg p) &&& ~~~ Gpio.bit p)).power = t.power := by
    intro t; split <;> rfl
  split at h
  · cases ht : Gpio.tccReg p with
    | none => rw [ht] at h; cases h
    | some t =>
      rw [ht] at h
      have hn : ¬ (0 < v ∧ v < 255) := by rcases hv with rfl | rfl <;> decide
      simp only [bind, Option.bind] at h
      rw [if_neg hn] at h
      cases h
      exact ⟨(keeps_tcc s ht).trans (hport _), hpow _⟩
  · cases h
    exact ⟨hport _, hpow _⟩

theorem keeps_stop : ∀ (n p : Nat) {s s' : Gpio.St}, (∀ q, s.power q = 0 ∨ s.power q = 255) → Gpio.stopFrom n p s = some s' → Keeps s s' ∧ s'.power = s.power
  | 0, _, s, s', _, h => by cases h; exact ⟨Keeps.refl _, rfl⟩
  | n + 1, p, s, s', hp, h => by
    rw [Gpio.stopFrom] at h
    by_cases ho : Gpio.isOn s p = true
    · rw [if_pos ho] at h
      cases h1 : Gpio.setOut p (Gpio.setOff p s) with
      | none => rw [h1] at h; cases h
      | some t =>
        rw [h1] at h
        obtain ⟨k1, e1⟩ := keeps_setOut (s := Gpio.setOff p s) (hp p) h1
        obtain ⟨k2, e2⟩ := keeps_stop n (p + 1) (s := t) (by intro q; rw [e1]; exact hp q) h
        exact ⟨((Keeps.of_r (s := s) (s' := Gpio.setOff p s) rfl).trans k1).trans k2, e2.trans e1⟩
    · rw [if_neg ho] at h
      exact keeps_stop n (p + 1) hp h

/-- All pin functions but `read` of the speaker's pin. -/
theorem keeps_call {c : Gpio.Call} {s s' : Gpio.St} (hw : Whole (.pin c)) (hr : c ≠ .read 5) (hp : ∀ q, s.power q = 0 ∨ s.power q = 255) (h : Gpio.call c s = some s') :
    Keeps s s' ∧ ∀ q, s'.power q = 0 ∨ s'.power q = 255 := by
  cases c with
  | talkto p d => cases h; exact ⟨((keeps_dirOut s p).trans (keeps_dirOut _ d)).trans (Keeps.of_r rfl), hp⟩
  | setpower v =>
    simp only [Gpio.call, bind, Option.bind] at h
    have hw : Gpio.powerByte v = some 0 ∨ Gpio.powerByte v = some 255 := hw
    cases hb : Gpio.powerByte v with
    | none => rw [hb] at h; cases h
    | some b =>
      rw [hb] at h hw
      have hb : b = 0 ∨ b = 255 := by
        rcases hw with e | e
        · exact .inl (Option.some.inj e)
        · exact .inr (Option.some.inj e)
      have hq : ∀ q, (if q = s.powerPin then b else s.power q) = 0 ∨ (if q = s.powerPin then b else s.power q) = 255 := by
        intro q; split
        · exact hb
        · exact hp q
      obtain ⟨k, e⟩ := keeps_setOut (s := { s with power := fun q => if q = s.powerPin then b else s.power q, lines := s.lines + 1 }) (hq _) h
      exact ⟨k.after rfl, by rw [e]; exact hq⟩
  | setleft => obtain ⟨k, e⟩ := keeps_setOut (s := Gpio.setOn s.dirPin s) (hp _) h; exact ⟨k.after rfl, by rw [e]; exact hp⟩
  | setright => obtain ⟨k, e⟩ := keeps_setOut (s := Gpio.setOff s.dirPin s) (hp _) h; exact ⟨k.after rfl, by rw [e]; exact hp⟩
  | on => obtain ⟨k, e⟩ := keeps_setOut (s := Gpio.setOn s.powerPin s) (hp _) h; exact ⟨k.after rfl, by rw [e]; exact hp⟩
  | off => obtain ⟨k, e⟩ := keeps_setOut (s := Gpio.setOff s.powerPin s) (hp _) h; exact ⟨k.after rfl, by rw [e]; exact hp⟩
  | pullnone p => cases h; exact ⟨Keeps.of_r rfl, hp⟩
  | pullup p => cases h; exact ⟨Keeps.of_r rfl, hp⟩
  | read p =>
    cases h
    refine ⟨keeps_dirIn s p (fun e => hr (by rw [e])), ?_⟩
    unfold Gpio.setDirIn
    simp only
    split <;> exact hp
  | stopall => obtain ⟨k, e⟩ := keeps_stop _ _ hp h; exact ⟨k, by rw [e]; exact hp⟩

theorem inv_call8 {c : Call8} {s s' : St8} (hw : Whole c) (h : Inv8 s) (hc : call8 c s = some s') : Inv8 s' := by
  cases c with
  | pin c =>
    simp only [call8] at hc
    cases hg : Gpio.call c s.g with
    | none => rw [hg] at hc; cases hc
    | some g =>
      rw [hg] at hc
      cases hc
      by_cases hr : c = .read 5
      · subst hr
        cases hg
        refine ⟨?_, ?_⟩
        · show (Gpio.setDirIn 5 s.g).r .ocr0b = 0
          unfold Gpio.setDirIn
          simp only
          split <;> exact h.ocr
        · show ∀ q, (Gpio.setDirIn 5 s.g).power q = 0 ∨ (Gpio.setDirIn 5 s.g).power q = 255
          unfold Gpio.setDirIn
          simp only
          split <;> exact h.pow
      · obtain ⟨k, hp⟩ := keeps_call hw hr h.pow hg
        exact ⟨k.ocrb.trans h.ocr, hp⟩
  | tone f =>
    simp only [call8, tone8] at hc
    split at hc
    · cases hc; exact ⟨h.ocr, h.pow⟩
    · cases hv : fToU32 (fdiv (intToF 8000000) f) with
      | none => rw [hv] at hc; cases hc
      | some v =>
        rw [hv] at hc
        cases hc
        show Inv8 (play8 v s)
        unfold play8
        split
        · exact ⟨h.ocr, h.pow⟩
        · exact ⟨h.ocr, h.pow⟩

theorem inv_calls8 : ∀ (l : List Call8) {s s' : St8}, (∀ c ∈ l, Whole c) → Inv8 s → calls8 l s = some s' → Inv8 s'
  | [], s, s', _, h, hc => by cases hc; exact h
  | c :: l, s, s', hw, h, hc => by
    rw [calls8] at hc
    cases h1 : call8 c s with
    | none => rw [h1] at hc; cases hc
    | some t =>
      rw [h1] at hc
      exact inv_calls8 l (fun c hc => hw c (by simp [hc])) (inv_call8 (hw c (by simp)) h h1) hc

theorem inv8_init : Inv8 init8 := ⟨rfl, fun _ => .inr rfl⟩

theorem p8M : Pos (intToF 8000000) (8000000 * 2 ^ 149) := ⟨by decide +kernel, by decide +kernel⟩
theorem p20M : Pos (intToF 20000000) (20000000 * 2 ^ 149) := ⟨by decide +kernel, by decide +kernel⟩

/-- A positive number. -/
theorem pos_nat {f : BitVec 32} (hf : f.toNat % 2 ^ 31 < 0x7f800000) (h : 0 < f32val f) : ∃ r : Nat, Pos f r ∧ f32val f = r ∧ 0 < r ∧ isZero f = false := by
  have hlt := f.isLt
  by_cases hn : f.toNat < 2 ^ 31
  · rw [Nat.mod_eq_of_lt hn] at hf
    have hp : Pos f (fmag f.toNat) := ⟨hf, rfl⟩
    have hv : f32val f = (fmag f.toNat : Int) := by rw [fval_eq_spec]; exact (pos_flags hp).2.2.2
    refine ⟨_, hp, hv, by omega, ?_⟩
    unfold isZero
    refine decide_eq_false (fun h0 => ?_)
    rw [Nat.mod_eq_of_lt hn] at h0
    have e : f = 0#32 := BitVec.eq_of_toNat_eq h0
    subst e
    exact absurd h (by decide +kernel)
  · have hv : f32val f = -(fmag (f.toNat - 2 ^ 31) : Int) := by
      rw [fval_eq_spec]; unfold fval fneg; rw [if_pos (decide_eq_true (by omega))]
    omega

theorem start8_sound (cs w : Nat) (s : St8) (ho : s.g.r .ocr0b = 0) (hw : 0 < w) (hw' : w ≤ 256) : sound8 (start8 cs w s) = some (div8 cs * w) := by
  have hd : ((start8 cs w s).g.r .ddrd).getLsbD 5 = true := by
    show (s.g.r .ddrd ||| Gpio.bit 5).getLsbD 5 = true
    rw [BitVec.getLsbD_or, show (Gpio.bit 5).getLsbD 5 = true by decide, Bool.or_true]
  have ha : ((start8 cs w s).g.r .ocr0a).toNat = w - 1 := by
    show (BitVec.ofNat 8 (w + 255)).toNat = _
    rw [BitVec.toNat_ofNat]; omega
  have ht : (start8 cs w s).g.r .tccr0a = 0x12#8 := rfl
  have hb : (start8 cs w s).g.r .ocr0b = 0 := ho
  unfold sound8
  rw [hd, ht, hb, ha, if_pos ⟨rfl, by decide, by decide, by decide, by decide, Nat.zero_le _⟩]
  show some (div8 cs * (w - 1 + 1)) = _
  rw [Nat.sub_add_cancel hw]

theorem range_aux {lo hi C N r v U : Nat} (hU : 0 < U) (h1 : lo * U ≤ r) (h2 : r ≤ hi * U) (a : 16777216 * (v * r) ≤ 16777217 * (C * U))
    (b : 16777215 * (C * U) < 16777216 * ((v + 1) * r)) (hN : 16777217 * C < 16777216 * (N * lo)) (hC : 16777216 * (k * hi) ≤ 16777215 * C) : k ≤ v ∧ v < N := by
  constructor
  · refine Nat.le_of_lt_succ (Nat.lt_of_not_le (fun hk => ?_))
    have e1 : (v + 1) * r ≤ k * (hi * U) := Nat.mul_le_mul hk h2
    have e2 : 16777216 * (k * hi) * U ≤ 16777215 * C * U := Nat.mul_le_mul_right _ hC
    have e3 : 16777216 * (k * hi) * U = 16777216 * (k * (hi * U)) := by rw [Nat.mul_assoc, Nat.mul_assoc]
    have e4 : 16777215 * C * U = 16777215 * (C * U) := Nat.mul_assoc ..
    omega
  · refine Nat.lt_of_not_le (fun hn => ?_)
    have e1 : N * (lo * U) ≤ v * r := Nat.mul_le_mul hn h1
    have e2 : 16777217 * C * U < 16777216 * (N * lo) * U := Nat.mul_lt_mul_of_pos_right hN hU
    have e3 : 16777216 * (N * lo) * U = 16777216 * (N * (lo * U)) := by rw [Nat.mul_assoc, Nat.mul_assoc]
    have e4 : 16777217 * C * U = 16777217 * (C * U) := Nat.mul_assoc ..
    omega

theorem low_aux {C lo U r : Nat} (h1 : lo * U ≤ r) (h : C ≤ 2 ^ 31 * lo) : C * U ≤ 2 ^ 31 * r := by
  have := Nat.mul_le_mul_right U h
  rw [Nat.mul_assoc] at this
  exact Nat.le_trans this (Nat.mul_le_mul_left _ h1)

/-- On the boards with an ATmega328P, from 31 Hz to 4 MHz and whatever calls came before (that left all powers at 0 or 1), a square wave of this frequency begins: the
clocks between the changes of the pin (two changes make a period, of 16000000 clocks a second) are as many as they should be, less at most a part in 32 and one. -/
theorem C84_note_328_partial (l : List Call8) (hl : ∀ c ∈ l, Whole c) {s : St8} (hs : calls8 l init8 = some s) (f : BitVec 32) (hf : f.toNat % 2 ^ 31 < 0x7f800000)
    (h1 : 31 * 2 ^ 149 ≤ f32val f) (h2 : f32val f ≤ 4000000 * 2 ^ 149) :
    ∃ s' t, call8 (.tone f) s = some s' ∧ sound8 s' = some t ∧ Pitch 8000000 32 t (f32val f) := by
  have hi := inv_calls8 l hl inv8_init hs
  have hU : ((2 ^ 149 : Nat) : Int) = 2 ^ 149 := by decide +kernel
  have hU0 : 0 < (2:Nat) ^ 149 := by decide +kernel
  obtain ⟨r, hp, hv, hr0, hz⟩ := pos_nat hf (Int.lt_of_lt_of_le (by decide +kernel) h1)
  rw [hv, ← hU] at h1 h2
  have h1 : 31 * 2 ^ 149 ≤ r := Int.ofNat_le.1 h1
  have h2 : r ≤ 4000000 * 2 ^ 149 := Int.ofNat_le.1 h2
  obtain ⟨v, e1, e2, e3⟩ := divisor p8M hp hr0 (Nat.le_trans h2 (Nat.mul_le_mul_right _ (by decide))) (low_aux h1 (by decide))
  obtain ⟨b1, b2⟩ := range_aux (N := 257 * 1024) (k := 1) hU0 h1 h2 e2 e3 (by decide) (by decide)
  have hc : call8 (.tone f) s = some (play8 v s) := by
    simp only [call8, tone8]
    rw [hz, e1]; rfl
  rcases pick8_spec v with ⟨-, g⟩ | ⟨cs, w, g1, g2, g3, g4, g5⟩
  · omega
  · have hplay : play8 v s = start8 cs w s := by unfold play8; rw [g1]
    have hw : 0 < w := by rcases g5 with ⟨-, rfl⟩ | g <;> omega
    refine ⟨_, div8 cs * w, hc, ?_, ?_⟩
    · rw [hplay]; exact start8_sound cs w s hi.ocr hw g2
    · exact pitch_aux (by decide) hU hv.symm e2 e3 g3 g4 g5

/-- Below 30 Hz nothing is played (down to where the conversion is undefined). -/
theorem C84_low_328 (s : St8) (f : BitVec 32) (hf : f.toNat % 2 ^ 31 < 0x7f800000) (h1 : 2 ^ 149 ≤ 128 * f32val f) (h2 : f32val f ≤ 30 * 2 ^ 149) :
    ∃ s', call8 (.tone f) s = some s' ∧ sound8 s' = none := by
  have hU : ((2 ^ 149 : Nat) : Int) = 2 ^ 149 := by decide +kernel
  have hU0 : 0 < (2:Nat) ^ 149 := by decide +kernel
  obtain ⟨r, hp, hv, hr0, hz⟩ := pos_nat hf (Int.lt_of_mul_lt_mul_left (a := 128) (by rw [Int.mul_zero]; exact Int.lt_of_lt_of_le (by decide +kernel) h1) (by decide))
  rw [hv, ← hU] at h1 h2
  have h1 : 2 ^ 149 ≤ 128 * r := Int.ofNat_le.1 h1
  have h2 : r ≤ 30 * 2 ^ 149 := Int.ofNat_le.1 h2
  obtain ⟨v, e1, e2, e3⟩ := divisor p8M hp hr0 (Nat.le_trans h2 (Nat.mul_le_mul_right _ (by decide))) (by
    have := Nat.mul_le_mul_left 8000000 h1
    rw [← Nat.mul_assoc] at this
    exact Nat.le_trans this (Nat.mul_le_mul_right _ (by decide)))
  have b : 257 * 1024 ≤ v := by
    refine Nat.le_of_lt_succ (Nat.lt_of_not_le (fun hk => ?_))
    have a1 : (v + 1) * r ≤ 257 * 1024 * (30 * 2 ^ 149) := Nat.mul_le_mul hk h2
    have a2 : 16777216 * (257 * 1024 * (30 * 2 ^ 149)) ≤ 16777215 * (8000000 * 2 ^ 149) := by decide +kernel
    exact absurd e3 (Nat.not_lt.2 (Nat.le_trans (Nat.mul_le_mul_left _ a1) a2))
  have hc : call8 (.tone f) s = some (play8 v s) := by
    simp only [call8, tone8]
    rw [hz, e1]; rfl
  rcases pick8_spec v with ⟨g, -⟩ | ⟨cs, w, g1, g2, g3, g4, g5⟩
  · refine ⟨_, hc, ?_⟩
    unfold play8
    rw [g]
    exact if_neg (fun h => absurd h.2.1 (by show ¬ (3#8).getLsbD 4 = true; decide))
  · exfalso
    have hd : div8 cs ≤ 1024 := by unfold div8; split <;> decide
    have : div8 cs * (w + 1) ≤ 1024 * 257 := Nat.mul_le_mul hd (by omega)
    omega

/-- `tone(0)` ends the tone, and nothing but `tone` begins one. -/
theorem C84_quiet_328_partial (s : St8) (hp : ∀ q, s.g.power q = 0 ∨ s.g.power q = 255) (l : List Gpio.Call) (hl : ∀ c ∈ l, Whole (.pin c)) (hr : ∀ c ∈ l, c ≠ .read 5) :
    ∃ s0, call8 (.tone 0) s = some s0 ∧ sound8 s0 = none ∧ ∀ s', calls8 (l.map .pin) s0 = some s' → sound8 s' = none := by
  refine ⟨off8 s, rfl, if_neg (fun h => absurd h.2.1 (by show ¬ (3#8).getLsbD 4 = true; decide)), ?_⟩
  suffices ∀ (l : List Gpio.Call) (t s' : St8), (∀ c ∈ l, Whole (.pin c)) → (∀ c ∈ l, c ≠ .read 5) → (∀ q, t.g.power q = 0 ∨ t.g.power q = 255) →
      (t.g.r .tccr0a).getLsbD 4 = false → calls8 (l.map .pin) t = some s' → sound8 s' = none by
    intro s' h; exact this l (off8 s) s' hl hr hp (by show (3#8).getLsbD 4 = false; decide) h
  intro l
  induction l with
  | nil => intro t s' _ _ _ h4 h; cases h; exact if_neg (fun h => absurd h.2.1 (by rw [h4]; decide))
  | cons c l ih =>
    intro t s' hl hr hp h4 h
    rw [List.map_cons, calls8, call8] at h
    cases hg : Gpio.call c t.g with
    | none => rw [hg] at h; cases h
    | some g =>
      rw [hg] at h
      obtain ⟨k, hp'⟩ := keeps_call (hl c (by simp)) (hr c (by simp)) hp hg
      exact ih { t with g := g } s' (fun c hc => hl c (by simp [hc])) (fun c hc => hr c (by simp [hc])) hp' (by rw [← h4]; exact k.b4) h

/-- A tone goes on, whatever the pins are told (but for powers other than 0 and 1, and `read` of its pin). So neither `off` nor `stopall` nor an interrupt by the user ends it:
the manual says the pin must be on. -/
theorem C84_lasts_328 (s : St8) (hp : ∀ q, s.g.power q = 0 ∨ s.g.power q = 255) {t : Nat} (hs : sound8 s = some t) : ∀ (l : List Gpio.Call), (∀ c ∈ l, Whole (.pin c)) →
    (∀ c ∈ l, c ≠ .read 5) → ∀ s', calls8 (l.map .pin) s = some s' → sound8 s' = some t := by
  intro l
  induction l generalizing s with
  | nil => intro _ _ s' h; cases h; exact hs
  | cons c l ih =>
    intro hl hr s' h
    rw [List.map_cons, calls8, call8] at h
    cases hg : Gpio.call c s.g with
    | none => rw [hg] at h; cases h
    | some g =>
      rw [hg] at h
      obtain ⟨k, hp'⟩ := keeps_call (hl c (by simp)) (hr c (by simp)) hp hg
      refine ih { s with g := g } hp' ?_ (fun c hc => hl c (by simp [hc])) (fun c hc => hr c (by simp [hc])) s' h
      unfold sound8 at hs ⊢
      split at hs
      · rename_i hcond
        rw [if_pos ⟨k.ddr hcond.1, by rw [k.b4]; exact hcond.2.1, fun h => hcond.2.2.1 (k.b5 h), by rw [k.b1]; exact hcond.2.2.2.1,
          by rw [k.b0]; exact hcond.2.2.2.2.1, by rw [k.ocrb, k.ocra]; exact hcond.2.2.2.2.2⟩]
        simp only [k.ocra]
        exact hs
      · cases hs

/-! ### Nano Every -/

open AvrPins (every)

/-- The bits of the timer's control register that belong to pins are bits 3 to 7. -/
theorem pwm_bits : ∀ e ∈ every.pins, ∀ w, e.pwm = some w → 3 ≤ w.2.2.2 ∧ w.2.2.2 < 8 := by
  intro e he w hw
  have := (List.all_eq_true.1 (show (every.pins.all fun e => match e.pwm with | some w => decide (3 ≤ w.2.2.2 ∧ w.2.2.2 < 8) | none => true) = true by decide +kernel)) e he
  rw [hw] at this
  exact of_decide_eq_true this

theorem pin_bits (p : Nat) (w) (h : (every.pin p).pwm = some w) : 3 ≤ w.2.2.2 ∧ w.2.2.2 < 8 := by
  by_cases hp : p < every.pins.length
  · have e : every.pin p = every.pins[p] := by
      unfold AvrPins.Board.pin
      rw [List.getD_eq_getElem?_getD, List.getElem?_eq_getElem hp]; rfl
    exact pwm_bits _ (e ▸ List.getElem_mem hp) w h
  · have e : every.pin p = AvrPins.io .pb 0 := by
      unfold AvrPins.Board.pin
      rw [List.getD_eq_getElem?_getD, List.getElem?_eq_none (by omega)]; rfl
    rw [e] at h
    cases h

/-- The mode of the timer, the low three bits. -/
def Mode (s s' : AvrPins.St) : Prop := ∀ j, j < 3 → (s'.tcc .tca0).getLsbD j = (s.tcc .tca0).getLsbD j

theorem Mode.trans {a b c : AvrPins.St} (h : Mode a b) (h' : Mode b c) : Mode a c := fun j hj => (h' j hj).trans (h j hj)

theorem mode_put (s s' : AvrPins.St) (t : AvrPins.Tm) (v : BitVec 8) (hs : s'.tcc = AvrPins.put s.tcc t v)
    (h : ∀ j, j < 3 → v.getLsbD j = (s.tcc t).getLsbD j) : Mode s s' := by
  intro j hj
  rw [hs]
  unfold AvrPins.put
  split
  · rename_i e; rw [e]; exact h j hj
  · rfl

theorem mode_undim {p : Nat} {w} (hw : (every.pin p).pwm = some w) (s : AvrPins.St) : Mode s (AvrPins.undim w s) := by
  obtain ⟨h1, h2⟩ := pin_bits p w hw
  refine mode_put s _ _ _ rfl (fun j hj => ?_)
  rw [Gpio.and_bit _ _ _ h2, decide_eq_false (by omega)]; simp

theorem mode_dim {p : Nat} {w} (hw : (every.pin p).pwm = some w) (v : BitVec 16) (s : AvrPins.St) : Mode s (AvrPins.dim every w v s) := by
  obtain ⟨h1, h2⟩ := pin_bits p w hw
  refine mode_put s _ _ _ rfl (fun j hj => ?_)
  rw [Gpio.or_bit _ _ _ h2, decide_eq_false (by omega)]; simp

theorem mode_setOut (p : Nat) (s : AvrPins.St) : Mode s (AvrPins.setOut every p s) := by
  unfold AvrPins.setOut AvrPins.setTo
  split
  · rename_i w hw
    split
    · exact mode_dim hw _ s
    · exact (mode_undim hw s).trans (fun _ _ => rfl)
  · exact fun _ _ => rfl

theorem mode_stop : ∀ (n p : Nat) (s : AvrPins.St), Mode s (AvrPins.stopFrom every n p s)
  | 0, _, _ => fun _ _ => rfl
  | n + 1, p, s => by
    rw [AvrPins.stopFrom]
    refine Mode.trans ?_ (mode_stop n (p + 1) _)
    unfold AvrPins.stopOne
    split
    · exact mode_setOut p (AvrPins.setOff every p s)
    · exact fun _ _ => rfl

theorem mode_toneReset (s : AvrPins.St) : Mode s (AvrPins.toneReset every 5 s) := by
  unfold AvrPins.toneReset
  split
  · rename_i w hw; exact mode_undim hw s
  · exact fun _ _ => rfl

theorem mode_call {c : AvrPins.Call} {s s' : AvrPins.St} (h : AvrPins.call every c s = some s') : Mode s s' := by
  cases c with
  | talkto p d => cases h; exact fun _ _ => rfl
  | setpower v =>
    simp only [AvrPins.call] at h
    cases hv : AvrPins.toPower every v with
    | none => rw [hv] at h; cases h
    | some x => rw [hv] at h; cases h; exact mode_setOut _ _
  | setleft => cases h; exact mode_setOut _ (AvrPins.setOn every s.dirPin s)
  | setright => cases h; exact mode_setOut _ (AvrPins.setOff every s.dirPin s)
  | on => cases h; exact mode_setOut _ (AvrPins.setOn every s.powerPin s)
  | off => cases h; exact mode_setOut _ (AvrPins.setOff every s.powerPin s)
  | pullnone p => cases h; exact fun _ _ => rfl
  | pullup p => cases h; exact fun _ _ => rfl
  | read p => cases h; exact fun _ _ => rfl
  | stopall => cases h; exact (mode_toneReset s).trans (mode_stop _ _ _)

theorem mode_connect (v : BitVec 16) (s : AvrPins.St) : Mode s (connect v s) := by
  refine mode_put s _ .tca0 (s.tcc .tca0 ||| 0x40) rfl (fun j hj => ?_)
  rw [show (0x40 : BitVec 8) = 1#8 <<< 6 from rfl, Gpio.or_bit _ _ _ (by decide), decide_eq_false (by omega)]; simp

theorem mode_start (cs w : Nat) (s : St16) : Mode s.p (start16 cs w s).p :=
  mode_connect ((BitVec.ofNat 32 (w + (2 ^ 32 - 1)) >>> 1).setWidth 16) s.p

theorem mode_call16 {c : Call16} {s s' : St16} (h : call16 c s = some s') : Mode s.p s'.p := by
  cases c with
  | pin c =>
    by_cases hc : c = .stopall
    · subst hc; cases h; exact (mode_toneReset s.p).trans (mode_stop _ _ _)
    · have e : call16 (.pin c) s = (AvrPins.call every c s.p).map fun p => { s with p := p } := by
        cases c <;> first | rfl | exact absurd rfl hc
      rw [e] at h
      cases hg : AvrPins.call every c s.p with
      | none => rw [hg] at h; cases h
      | some p => rw [hg] at h; cases h; exact mode_call hg
  | tone f =>
    simp only [call16, tone16] at h
    split at h
    · cases h; exact mode_toneReset s.p
    · cases hv : fToU32 (fdiv (intToF 20000000) f) with
      | none => rw [hv] at h; cases h
      | some v =>
        rw [hv] at h
        cases h
        show Mode s.p (play16 v s).p
        unfold play16
        split
        · exact mode_start _ _ s
        · exact mode_toneReset s.p

theorem mode_calls16 : ∀ (l : List Call16) {s s' : St16}, calls16 l s = some s' → Mode s.p s'.p
  | [], s, s', h => by cases h; exact fun _ _ => rfl
  | c :: l, s, s', h => by
    rw [calls16] at h
    cases h1 : call16 c s with
    | none => rw [h1] at h; cases h
    | some t => rw [h1] at h; exact (mode_call16 h1).trans (mode_calls16 l h)

theorem start16_sound (cs w : Nat) (s : St16) (hm : Mode init16.p s.p) (hw : 3 ≤ w) (hw' : w ≤ 65535) : sound16 (start16 cs w s) = some (div16 cs * w) := by
  have hv : (BitVec.ofNat 32 (w + (2 ^ 32 - 1))).toNat = w - 1 := by rw [BitVec.toNat_ofNat]; omega
  have hper : (start16 cs w s).per.toNat = w - 1 := by
    show ((BitVec.ofNat 32 (w + (2 ^ 32 - 1))).setWidth 16).toNat = _
    rw [BitVec.toNat_setWidth, hv]; omega
  have hcmp : ((start16 cs w s).p.ocr .tca0 2).toNat = (w - 1) / 2 := by
    show (((BitVec.ofNat 32 (w + (2 ^ 32 - 1))) >>> 1).setWidth 16).toNat = _
    rw [BitVec.toNat_setWidth, BitVec.toNat_ushiftRight, hv, Nat.shiftRight_eq_div_pow]; omega
  have hd : ((start16 cs w s).p.ddr .pb).getLsbD 2 = true := by
    show (s.p.ddr .pb ||| 1#8 <<< 2).getLsbD 2 = true
    rw [Gpio.or_bit _ _ _ (by decide)]; simp
  have hmode : Mode init16.p (start16 cs w s).p := hm.trans (mode_start cs w s)
  have h6 : ((start16 cs w s).p.tcc .tca0).getLsbD 6 = true := by
    show (s.p.tcc .tca0 ||| 1#8 <<< 6).getLsbD 6 = true
    rw [Gpio.or_bit _ _ _ (by decide)]; simp
  unfold sound16
  rw [hd, h6, hmode 0 (by decide), hmode 1 (by decide), hmode 2 (by decide), hcmp, hper,
    if_pos ⟨rfl, rfl, by decide +kernel, by decide +kernel, by decide +kernel, by omega, by omega⟩]
  show some (div16 cs * (w - 1 + 1)) = _
  rw [Nat.sub_add_cancel (by omega)]

/-- On the Nano Every, from 0.3 Hz to 6 MHz and whatever calls came before, a wave of this frequency begins: the clocks of a period (of 20000000 a second) are as many as they
should be, less at most a part in 16384 and one. -/
theorem C84_note_every (l : List Call16) {s : St16} (hs : calls16 l init16 = some s) (f : BitVec 32) (hf : f.toNat % 2 ^ 31 < 0x7f800000)
    (h1 : 3 * 2 ^ 149 ≤ 10 * f32val f) (h2 : f32val f ≤ 6000000 * 2 ^ 149) :
    ∃ s' t, call16 (.tone f) s = some s' ∧ sound16 s' = some t ∧ Pitch 20000000 16384 t (f32val f) := by
  have hm := mode_calls16 l hs
  have hU : ((2 ^ 149 : Nat) : Int) = 2 ^ 149 := by decide +kernel
  have hU0 : 0 < (2:Nat) ^ 149 := by decide +kernel
  obtain ⟨r, hp, hv, hr0, hz⟩ := pos_nat hf (Int.lt_of_mul_lt_mul_left (a := 10) (by rw [Int.mul_zero]; exact Int.lt_of_lt_of_le (by decide +kernel) h1) (by decide))
  rw [hv, ← hU] at h1 h2
  have h1 : 3 * 2 ^ 149 ≤ 10 * r := Int.ofNat_le.1 h1
  have h2 : r ≤ 6000000 * 2 ^ 149 := Int.ofNat_le.1 h2
  obtain ⟨v, e1, e2, e3⟩ := divisor p20M hp hr0 (Nat.le_trans h2 (Nat.mul_le_mul_right _ (by decide))) (by
    generalize 2 ^ 149 = U at *
    omega)
  have b1 : 3 ≤ v := by
    refine Nat.le_of_lt_succ (Nat.lt_of_not_le (fun hk => ?_))
    have a1 : (v + 1) * r ≤ 3 * (6000000 * 2 ^ 149) := Nat.mul_le_mul hk h2
    have a2 : 16777216 * (3 * (6000000 * 2 ^ 149)) ≤ 16777215 * (20000000 * 2 ^ 149) := by decide +kernel
    exact absurd e3 (Nat.not_lt.2 (Nat.le_trans (Nat.mul_le_mul_left _ a1) a2))
  have b2 : v < 65536 * 1024 := by
    refine Nat.lt_of_not_le (fun hk => ?_)
    have a1 : 65536 * 1024 * (3 * 2 ^ 149) ≤ v * (10 * r) := Nat.mul_le_mul hk h1
    have a2 : 10 * (16777217 * (20000000 * 2 ^ 149)) < 16777216 * (65536 * 1024 * (3 * 2 ^ 149)) := by decide +kernel
    have a3 : 16777216 * (v * (10 * r)) = 10 * (16777216 * (v * r)) := by
      rw [Nat.mul_left_comm v, Nat.mul_left_comm]
    have a4 := Nat.mul_le_mul_left 10 e2
    rw [← a3] at a4
    exact absurd (Nat.lt_of_lt_of_le a2 (Nat.mul_le_mul_left _ a1)) (Nat.not_lt.2 a4)
  have hc : call16 (.tone f) s = some (play16 v s) := by
    simp only [call16, tone16]
    rw [hz, e1]; rfl
  rcases pick16_spec v with ⟨-, g⟩ | ⟨cs, w, g1, g2, g3, g4, g5⟩
  · omega
  · have hplay : play16 v s = start16 cs w s := by unfold play16; rw [g1]
    have hw : 3 ≤ w := by rcases g5 with ⟨-, rfl⟩ | g <;> omega
    refine ⟨_, div16 cs * w, hc, ?_, ?_⟩
    · rw [hplay]; exact start16_sound cs w s hm hw g2
    · exact pitch_aux (by decide) hU hv.symm e2 e3 g3 g4 g5

theorem off_low (p : Nat) (s : AvrPins.St) (h : (s.tcc .tca0).getLsbD 6 = false) :
    ((AvrPins.setOut every p (AvrPins.setOff every p s)).tcc .tca0).getLsbD 6 = false := by
  have hw : AvrPins.want every (AvrPins.setOff every p s) p = 0 := by
    unfold AvrPins.want
    rw [if_neg]
    show ¬ AvrPins.flag every (AvrPins.lower every s.onPins p) p = true
    rw [AvrPins.flag_lower]; simp
  unfold AvrPins.setOut
  rw [hw]
  unfold AvrPins.setTo
  split
  · rename_i w hp
    rw [if_neg (by decide)]
    show (AvrPins.put s.tcc w.2.2.1 (s.tcc w.2.2.1 &&& ~~~ (1#8 <<< w.2.2.2)) .tca0).getLsbD 6 = false
    unfold AvrPins.put
    split
    · rename_i e
      rw [Gpio.and_bit _ _ _ (pin_bits p w hp).2, ← e, h]; rfl
    · exact h
  · exact h

theorem stop_low : ∀ (n p : Nat) (s : AvrPins.St), (s.tcc .tca0).getLsbD 6 = false → ((AvrPins.stopFrom every n p s).tcc .tca0).getLsbD 6 = false
  | 0, _, _, h => h
  | n + 1, p, s, h => by
    rw [AvrPins.stopFrom]
    refine stop_low n (p + 1) _ ?_
    unfold AvrPins.stopOne
    split
    · exact off_low p s h
    · exact h

theorem reset_low (s : AvrPins.St) : ((AvrPins.toneReset every 5 s).tcc .tca0).getLsbD 6 = false := by
  show (s.tcc .tca0 &&& ~~~ (1#8 <<< 6)).getLsbD 6 = false
  rw [Gpio.and_bit _ _ _ (by decide)]; simp

theorem low_quiet {s : St16} (h : (s.p.tcc .tca0).getLsbD 6 = false) : sound16 s = none := if_neg (fun c => absurd c.2.1 (by rw [h]; decide))

/-- `tone(0)`, `stopall` and `off` of its pin end the tone. -/
theorem C84_quiet_every (s : St16) : (∃ s', call16 (.tone 0) s = some s' ∧ sound16 s' = none) ∧
    (∃ s', call16 (.pin .stopall) s = some s' ∧ sound16 s' = none) ∧
    (s.p.powerPin = 5 → ∃ s', call16 (.pin .off) s = some s' ∧ sound16 s' = none) := by
  refine ⟨⟨_, rfl, low_quiet (reset_low s.p)⟩, ⟨_, rfl, low_quiet (stop_low _ _ _ (reset_low s.p))⟩, fun h5 => ⟨_, rfl, low_quiet ?_⟩⟩
  show ((AvrPins.setOut every s.p.powerPin (AvrPins.setOff every s.p.powerPin s.p)).tcc .tca0).getLsbD 6 = false
  rw [h5]
  have hw : AvrPins.want every (AvrPins.setOff every 5 s.p) 5 = 0 := by
    unfold AvrPins.want
    rw [if_neg]
    show ¬ AvrPins.flag every (AvrPins.lower every s.p.onPins 5) 5 = true
    rw [AvrPins.flag_lower]; simp
  unfold AvrPins.setOut
  rw [hw]
  exact reset_low s.p

/-! ## Cases -/

/-- 440 Hz: 71 counts of 256 clocks between changes; 45454 clocks. -/
example : (call8 (.tone 0x43dc0000) init8).map sound8 = some (some (256 * 71)) ∧ (call16 (.tone 0x43dc0000) init16).map sound16 = some (some 45454) := by decide +kernel

/-- The wave at 440 Hz: after 55 samples it has begun again. -/
example : ((events [.tone 0x43dc0000, .level 65535] dac0).bind (ticks 55)).map (fun s => (s.step.toNat, s.phase.toNat, s.data)) = some (307582, 139794, 0) := by decide +kernel

example : Audible 0x43dc0000 := by unfold Audible; decide +kernel

/-- And `tone(0)` and `stopall` give the timer back, as it was at the start: not divided, counting to 65535, so that other pins can be dimmed. -/
theorem C84_restored_every (s : St16) (c : Call16) (hc : c = .tone 0 ∨ c = .pin .stopall) :
    ∃ s', call16 c s = some s' ∧ s'.cs = init16.cs ∧ s'.per = init16.per := by
  rcases hc with rfl | rfl
  · exact ⟨_, rfl, rfl, rfl⟩
  · exact ⟨_, rfl, rfl, rfl⟩

/-- It was different before. -/
example : (call16 (.tone 0x43dc0000) init16).map (fun s => decide (s.per = init16.per)) = some false := by decide +kernel

/-! ## What does not hold -/

/-- Of more than the sample rate the code takes off one turn a sample only: the second sample of 72000 Hz is read from outside the table. -/
theorem C84_violated_range : (events [.tone 0x478ca000, .tick] dac0).isSome = true ∧ events [.tone 0x478ca000, .tick, .tick] dac0 = none := by decide +kernel

/-- A negative frequency is converted to an unsigned number, which is undefined. -/
theorem C84_violated_negative : setHz 0xbf800000 dac0 = none ∧ call8 (.tone 0xbf800000) init8 = none ∧ call16 (.tone 0xbf800000) init16 = none := by decide +kernel

/-- The wave ends, the pin is turned off — and goes on giving half the voltage: the last sample stays (6000 Hz). -/
theorem C84_violated_rest : ((events [.level 65535, .tone 0x45bb8000, .tick, .tick, .tick, .tick, .tone 0, .level 0] dac0).bind (ticks 1000)).map (·.data) = some 32766 := by decide +kernel

/-- At half power there is no tone: the compare value is beyond what the timer counts to. -/
theorem C84_violated_power : (calls8 [.pin (.talkto 5 5), .pin (.setpower 0x3f000000), .pin .on, .tone 0x43dc0000] init8).map sound8 = some none := by decide +kernel

/-- `off` and `stopall` do not end it. -/
theorem C84_violated_off : (calls8 [.pin (.talkto 5 5), .tone 0x43dc0000, .pin .off] init8).map sound8 = some (some 18176) ∧
    (calls8 [.pin (.talkto 5 5), .tone 0x43dc0000, .pin .stopall] init8).map sound8 = some (some 18176) := by decide +kernel

/-- `tonefor` leaves the pin on. -/
theorem C84_violated_tonefor : (calls8 [.pin (.talkto 5 5), .tone 0x43dc0000, .pin .on, .tone 0] init8).map (fun s => Gpio.drives s.g.r 5) = some (some 255) := by decide +kernel

/-- `tone` takes the timer from pin 6, and pin 6 changes the frequency of the tone. -/
theorem C84_violated_pin6 :
    (calls8 [.pin (.talkto 6 6), .pin (.setpower 0x3f000000), .pin .on] init8).map (fun s => Gpio.drives s.g.r 6) = some (some 128) ∧
    (calls8 [.pin (.talkto 6 6), .pin (.setpower 0x3f000000), .pin .on, .tone 0x43dc0000] init8).map (fun s => Gpio.drives s.g.r 6) = some (some 0) ∧
    (calls8 [.tone 0x43dc0000, .pin (.talkto 6 6), .pin (.setpower 0x3f000000), .pin .on] init8).map sound8 = some (some (256 * 129)) := by decide +kernel

/-- 9 MHz is played as 31250 Hz. -/
theorem C84_violated_high : (call8 (.tone 0x4b095440) init8).map sound8 = some (some 256) := by decide +kernel

/-- On the Nano Every `tonefor` is silent if the current pin is the speaker's: `on` takes it from the timer. -/
theorem C84_violated_on : (calls16 [.pin (.talkto 5 5), .tone 0x43dc0000] init16).map sound16 = some (some 45454) ∧
    (calls16 [.pin (.talkto 5 5), .tone 0x43dc0000, .pin .on] init16).map sound16 = some none := by decide +kernel

/-- There a tone changes the power of pins 9 and 10: here from 0.5 to 0.72. -/
theorem C84_violated_pin9 :
    (calls16 [.pin (.talkto 9 9), .pin (.setpower 0x3f000000), .pin .on] init16).map (high16 · 0) = some (32768, 65536) ∧
    (calls16 [.pin (.talkto 9 9), .pin (.setpower 0x3f000000), .pin .on, .tone 0x43dc0000] init16).map (high16 · 0) = some (32768, 45454) := by decide +kernel

end Snek.Tone
