import Verif.Proofs.Time
import Verif.Proofs.TimeFloat
/-!
# C67: the clock of the AVR boards

A reading of the clock is the time at a moment during the call, whatever interrupts come in between; `time.sleep` does not return
early; `time.monotonic` does not go backwards.
-/
namespace Snek.Time

/-- `snek_ticks` on the 328P, 1284 and 2560: 8-bit counter, the clock's interrupt (TIMER2_OVF) before those of the serial lines. -/
def mega : Port := ⟨8, 0, true⟩
/-- The 4809: 16-bit counter at the full rate. -/
def every : Port := ⟨16, 6, true⟩
/-- The 32u4: the USB interrupts come before TIMER0_OVF. -/
def duino : Port := ⟨8, 0, false⟩

/-- In every execution, with any interrupts at any moment, a call that returns gives the time (in ticks modulo 2^32) at a moment
between the call and the return, and the clock still keeps the time, provided the clock's interrupt has priority. A call is assumed
to take less than 2^31 turns of the counter (6 days at the least). -/
theorem C67_reading_partial (P : Port) (hf : P.first = true) (hw : P.w ≤ 32) (hs : P.shift ≤ P.w) (s s' : Cpu) (r : BitVec 32) (hk : Keeps P s)
    (h : Ticks P s s' r) (hd : s'.t < s.t + 2 ^ (P.w + 31)) : Keeps P s' ∧ TimeIn P s.t s'.t r :=
  ticks_spec hf hw hs hk h hd

/-- Two calls, one after the other: the later reading is not smaller, unless the 32-bit count wrapped in between. -/
theorem C67_order (P : Port) (hf : P.first = true) (hw : P.w ≤ 32) (hs : P.shift ≤ P.w) (s₁ s₂ s₃ s₄ : Cpu) (r r' : BitVec 32) (hk : Keeps P s₁) (hk' : Keeps P s₃)
    (h : Ticks P s₁ s₂ r) (h' : Ticks P s₃ s₄ r') (hle : s₂.t ≤ s₃.t) (hd : s₂.t < s₁.t + 2 ^ (P.w + 31)) (hd' : s₄.t < s₃.t + 2 ^ (P.w + 31))
    (hwrap : s₁.t / 2 ^ P.shift / 2 ^ 32 = s₄.t / 2 ^ P.shift / 2 ^ 32) : r.toNat ≤ r'.toNat := by
  obtain ⟨_, T, a1, a2, rfl⟩ := ticks_spec hf hw hs hk h hd
  obtain ⟨_, T', b1, b2, rfl⟩ := ticks_spec hf hw hs hk' h' hd'
  rw [BitVec.toNat_ofNat, BitVec.toNat_ofNat]
  have d1 := Nat.div_le_div_right (c := 2 ^ P.shift) a1
  have d2 := Nat.div_le_div_right (c := 2 ^ P.shift) (show T ≤ T' by omega)
  have d3 := Nat.div_le_div_right (c := 2 ^ P.shift) b2
  omega

/-- `time.sleep` for `n` ticks (less than 2^31) that is not interrupted by ^C does not return before `n` ticks have gone by. -/
theorem C67_sleep_partial (P : Port) (hf : P.first = true) (hw : P.w ≤ 32) (hs : P.shift ≤ P.w) (n : Nat) (hn : n < 2 ^ 31) (s s' : Cpu) (hk : Keeps P s)
    (h : Sleep P (BitVec.ofNat 32 n) s s' false) (hd : s'.t < s.t + 2 ^ (P.w + 31)) :
    Keeps P s' ∧ s.t / 2 ^ P.shift + n ≤ s'.t / 2 ^ P.shift := by
  cases h with
  | mk ht hl =>
    have hle := loop_le hl
    have hle' := ticks_le ht
    obtain ⟨k', T, a1, a2, rfl⟩ := ticks_spec hf hw hs hk ht (by omega)
    obtain ⟨k'', h⟩ := loop_spec hf hw hs hn hl (Nat.div_le_div_right a2) k' hd hle'
    have := h rfl
    have := Nat.div_le_div_right (c := 2 ^ P.shift) a1
    exact ⟨k'', by omega⟩

/-- And it ends at the first look at the clock after that time (if that look is within 2^31 ticks of it): such a look does not
continue the loop. `T` is the moment of the first reading. -/
theorem C67_wakes (P : Port) (hf : P.first = true) (hw : P.w ≤ 32) (hs : P.shift ≤ P.w) (n T : Nat) (s s' : Cpu) (r : BitVec 32) (hk : Keeps P s)
    (h : Ticks P s s' r) (hd : s'.t < s.t + 2 ^ (P.w + 31)) (hlate : T / 2 ^ P.shift + n ≤ s.t / 2 ^ P.shift)
    (hsoon : s'.t / 2 ^ P.shift ≤ T / 2 ^ P.shift + n + 2 ^ 31) :
    ¬ 0 < (BitVec.ofNat 32 (T / 2 ^ P.shift) + BitVec.ofNat 32 n - r).toInt := by
  obtain ⟨_, T', a1, a2, rfl⟩ := ticks_spec hf hw hs hk h hd
  have d1 := Nat.div_le_div_right (c := 2 ^ P.shift) a1
  have d2 := Nat.div_le_div_right (c := 2 ^ P.shift) a2
  exact diff_toInt_neg _ _ _ (by omega) (by omega)

theorem tps16 : Pos (ticksPerSecond 16000000) (250000 * 2 ^ 149) := ⟨by decide +kernel, by decide +kernel⟩
theorem tps20 : Pos (ticksPerSecond 20000000) (312500 * 2 ^ 149) := ⟨by decide +kernel, by decide +kernel⟩

/-- The clock frequencies used and their ticks per second. -/
def Rate (fcpu c : Nat) : Prop := fcpu = 16000000 ∧ c = 250000 ∨ fcpu = 20000000 ∧ c = 312500

theorem rate_pos {fcpu c : Nat} (h : Rate fcpu c) : Pos (ticksPerSecond fcpu) (c * 2 ^ 149) := by
  rcases h with ⟨rfl, rfl⟩ | ⟨rfl, rfl⟩
  · exact tps16
  · exact tps20

/-- A finite positive number. -/
theorem pos_of {u : BitVec 32} {r : Nat} (hf : u.toNat < 0x7f800000) (hv : Spec.f32val u = r) : Pos u r := by
  refine ⟨hf, ?_⟩
  unfold Spec.f32val at hv
  rw [if_pos (by omega)] at hv
  exact Int.ofNat.inj hv

/-- The number of ticks for `sec` seconds (`r` units of 2^-149 s): the nearest, up to two relative errors of 2^-24, for every time up to
2^31 - 1000 ticks (2.3 hours). -/
theorem C67_ticks (fcpu c : Nat) (hr : Rate fcpu c) (sec : BitVec 32) (r : Nat) (hf : sec.toNat < 0x7f800000) (hv : Spec.f32val sec = r)
    (hhi : r * c ≤ (2 ^ 31 - 1000) * 2 ^ 149) :
    ∃ n, n < 2 ^ 31 ∧ secToTicks fcpu sec = some (BitVec.ofNat 32 n) ∧
      16777215 * (16777215 * (r * c) + 16777216 * 2 ^ 148) < 16777216 ^ 2 * ((n + 1) * 2 ^ 149) ∧
      16777216 ^ 2 * (n * 2 ^ 149) ≤ 16777217 * (16777217 * (r * c) + 16777216 * 2 ^ 148) :=
  sec_ticks (rate_pos hr) (pos_of hf hv) hhi

theorem exact_aux {k n U H : Nat} (hU : U = 2 * H) (hH : 0 < H) (hk : k < 2 ^ 21)
    (h1 : 16777215 * (16777215 * (k * U) + 16777216 * H) < 16777216 ^ 2 * ((n + 1) * U))
    (h2 : 16777216 ^ 2 * (n * U) ≤ 16777217 * (16777217 * (k * U) + 16777216 * H)) : n = k := by
  subst hU
  have e1 : 16777215 * (16777215 * (k * (2 * H)) + 16777216 * H) = (16777215 * (16777215 * (k * 2) + 16777216)) * H := by
    rw [Nat.mul_assoc, Nat.add_mul]; congr 2; ac_rfl
  have e2 : 16777216 ^ 2 * ((n + 1) * (2 * H)) = (16777216 ^ 2 * ((n + 1) * 2)) * H := by ac_rfl
  have e3 : 16777217 * (16777217 * (k * (2 * H)) + 16777216 * H) = (16777217 * (16777217 * (k * 2) + 16777216)) * H := by
    rw [Nat.mul_assoc, Nat.add_mul]; congr 2; ac_rfl
  have e4 : 16777216 ^ 2 * (n * (2 * H)) = (16777216 ^ 2 * (n * 2)) * H := by ac_rfl
  rw [e1, e2] at h1
  rw [e3, e4] at h2
  have h1 := Nat.lt_of_mul_lt_mul_right h1
  have h2 := Nat.le_of_mul_le_mul_right h2 hH
  omega

/-- A time that is a whole number `k` of ticks (below 2^21: 8 s at 16 MHz) gives exactly `k`. -/
theorem C67_ticks_exact (fcpu c : Nat) (hr : Rate fcpu c) (sec : BitVec 32) (r k : Nat) (hf : sec.toNat < 0x7f800000) (hv : Spec.f32val sec = r)
    (hk : r * c = k * 2 ^ 149) (hlt : k < 2 ^ 21) : secToTicks fcpu sec = some (BitVec.ofNat 32 k) := by
  obtain ⟨n, _, h, h1, h2⟩ := C67_ticks fcpu c hr sec r hf hv (by
    rw [hk]; exact Nat.mul_le_mul_right _ (by omega))
  rw [hk] at h1 h2
  rw [h, exact_aux (by decide +kernel) (by decide +kernel) hlt h1 h2]

theorem spt16 : Pos (secondsPerTick 16000000) (fmag (secondsPerTick 16000000).toNat) ∧ fmag (secondsPerTick 16000000).toNat ≤ 2 ^ 149 :=
  ⟨⟨by decide +kernel, rfl⟩, by decide +kernel⟩
theorem spt20 : Pos (secondsPerTick 20000000) (fmag (secondsPerTick 20000000).toNat) ∧ fmag (secondsPerTick 20000000).toNat ≤ 2 ^ 149 :=
  ⟨⟨by decide +kernel, rfl⟩, by decide +kernel⟩

/-- `time.monotonic` never goes backwards before the 32-bit count wraps: a larger reading does not give a smaller number. -/
theorem C67_monotonic (fcpu c : Nat) (hr : Rate fcpu c) (r r' : BitVec 32) (h : r.toNat ≤ r'.toNat) :
    Spec.f32val (monotonic fcpu r) ≤ Spec.f32val (monotonic fcpu r') := by
  have e : ∀ x : BitVec 32, BitVec.ofNat 32 x.toNat = x := fun x => by simp
  rw [← e r, ← e r']
  rcases hr with ⟨rfl, _⟩ | ⟨rfl, _⟩
  · exact monotonic_mono spt16.1 spt16.2 h r'.isLt
  · exact monotonic_mono spt20.1 spt20.2 h r'.isLt

/-! ## The hypotheses can be met -/

/-- The machine with interrupts enabled at time `t`, the overflow pending or not. -/
def at_ (t k : Nat) (ovf : Bool) : Cpu := ⟨t, BitVec.ofNat 32 k, ovf, false, true, false, .done, 0, 0, 0, 0⟩

example : Keeps mega (at_ 1000 3 false) := ⟨3, rfl, rfl⟩
example : Keeps mega (at_ 1024 3 true) := ⟨3, rfl, rfl⟩

/-- An execution as a list of choices, for computing. -/
inductive Ev
  | pass (t : Nat) | raise | tick | handle | main | nop
  deriving DecidableEq

def ready (s : Cpu) : Bool := !(s.ie && !s.shadow && (s.ovf || s.other))

def run1 (P : Port) (s : Cpu) : Ev → Option Cpu
  | .pass t' => if s.t ≤ t' ∧ t' / 2 ^ P.w ≤ s.t / 2 ^ P.w + (if s.ovf then 0 else 1) then
      some { s with t := t', ovf := s.ovf || decide (s.t / 2 ^ P.w < t' / 2 ^ P.w) } else none
  | .raise => some { s with other := true }
  | .tick => if s.ie = true ∧ s.shadow = false ∧ s.ovf = true ∧ (P.first = true ∨ s.other = false) then
      some { s with tocks := s.tocks + 1, ovf := false, shadow := true } else none
  | .handle => if s.ie = true ∧ s.shadow = false ∧ s.other = true ∧ (P.first = true → s.ovf = false) then
      some { s with other := false, shadow := true } else none
  | .main => if ready s = true ∧ s.pc ≠ .done then some (instr P s) else none
  | .nop => if ready s = true then some { s with shadow := false } else none

def runs (P : Port) : Cpu → List Ev → Option Cpu
  | s, [] => some s
  | s, e :: l => (run1 P s e).bind (runs P · l)

theorem ready_of {s : Cpu} (h : ready s = true) : s.ie = true → s.shadow = false → s.ovf = false ∧ s.other = false := by
  unfold ready at h
  intro a b
  rw [a, b] at h
  revert h
  cases s.ovf <;> cases s.other <;> simp

theorem run1_step {P : Port} {s s' : Cpu} {e : Ev} (h : run1 P s e = some s') : Step P s s' := by
  cases e <;> unfold run1 at h <;> simp only [Option.some.injEq, Option.ite_none_right_eq_some] at h
  · obtain ⟨⟨a, b⟩, rfl⟩ := h; exact .pass s _ a b
  · subst h; exact .raise s
  · obtain ⟨⟨a, b, c, d⟩, rfl⟩ := h; exact .tick s a b c d
  · obtain ⟨⟨a, b, c, d⟩, rfl⟩ := h; exact .handle s a b c d
  · obtain ⟨⟨a, b⟩, rfl⟩ := h; exact .main s (ready_of a) b
  · obtain ⟨a, rfl⟩ := h; exact .nop s (ready_of a)

theorem runs_steps {P : Port} (l : List Ev) {s0 s s' : Cpu} (h0 : Steps P s0 s) (h : runs P s l = some s') : Steps P s0 s' := by
  induction l generalizing s with
  | nil => simp only [runs, Option.some.injEq] at h; subst h; exact h0
  | cons e l ih =>
    simp only [runs] at h
    cases h1 : run1 P s e with
    | none => rw [h1] at h; exact absurd h (by simp)
    | some s1 => rw [h1] at h; exact ih (.step h0 (run1_step h1)) h

/-- The state after the call with the given choices. -/
def aft (P : Port) (s : Cpu) (l : List Ev) : Cpu := (runs P { s with pc := .cli1 } l).getD s

theorem ticks_of_run {P : Port} {s : Cpu} {r : BitVec 32} (l : List Ev)
    (h : (runs P { s with pc := .cli1 } l).isSome = true ∧ (aft P s l).pc = .done ∧ result P (aft P s l) = r) : Ticks P s (aft P s l) r := by
  obtain ⟨h1, h2, rfl⟩ := h
  refine ⟨?_, h2, rfl⟩
  unfold aft
  obtain ⟨s', e⟩ := Option.isSome_iff_exists.1 h1
  rw [e]
  exact runs_steps l (.refl _) e

/-- The overflow happens just before the counter is read: the loop goes round once more and the result is right. -/
def busy : List Ev :=
  [.main, .main, .pass 1024, .main, .main, .tick, .main, .main, .main, .main, .pass 1030, .main, .main, .main, .main, .main, .main, .main, .main]

example : Ticks mega (at_ 1023 3 false) (aft mega (at_ 1023 3 false) busy) 1030#32 ∧ (aft mega (at_ 1023 3 false) busy).t = 1030 :=
  ⟨ticks_of_run busy (by decide +kernel), by decide +kernel⟩

/-- A sleep of 7 ticks. -/
def quiet (t : Nat) : List Ev := [.main, .main, .main, .main, .main, .main, .pass t, .main, .main]

example : ∃ s', Sleep mega (BitVec.ofNat 32 7) (at_ 1000 3 false) s' false ∧ s'.t = 1008 :=
  ⟨aft mega (aft mega (aft mega (at_ 1000 3 false) (quiet 1001)) (quiet 1007)) (quiet 1008),
    .mk (r := 1000#32) (ticks_of_run (quiet 1001) (by decide +kernel))
      (.again (r := 1001#32) (ticks_of_run (quiet 1007) (by decide +kernel)) (by decide +kernel)
        (.stop (r := 1007#32) (ticks_of_run (quiet 1008) (by decide +kernel)) (by decide +kernel))), by decide +kernel⟩

/-- `time.sleep(0.5)` at 16 MHz is 125000 ticks. -/
example : secToTicks 16000000 0x3f000000 = some 125000#32 :=
  C67_ticks_exact 16000000 250000 (.inl ⟨rfl, rfl⟩) _ (2 ^ 148) 125000 (by decide) (by decide +kernel) (by decide +kernel) (by decide)

/-! ## Where it fails -/

/-- 32u4: the overflow and a USB interrupt come just before the counter is read. The USB handler runs first, then `cli`: both readings of
`tocks` are old and the result is 256 ticks behind (the time is 1024 at every moment of the call after the first instructions). -/
def unlucky : List Ev := [.pass 1023, .main, .main, .pass 1024, .raise, .main, .main, .handle, .main, .main, .main, .main]

theorem C67_violated_usb : ∃ s', Ticks duino (at_ 1023 3 false) s' 768#32 ∧ Keeps duino (at_ 1023 3 false) ∧ s'.t = 1024 ∧ ¬ TimeIn duino 1023 1024 768#32 := by
  refine ⟨aft duino (at_ 1023 3 false) unlucky, ticks_of_run unlucky (by decide +kernel), ⟨3, rfl, rfl⟩, by decide +kernel, ?_⟩
  rintro ⟨T, a, b, c⟩
  have : T = 1023 ∨ T = 1024 := by omega
  rcases this with rfl | rfl <;> exact absurd c (by decide)

/-- `time.sleep` for 2^31 ticks and more ends at the first look: `time.sleep(10000)` at 16 MHz returns at once. -/
theorem C67_violated_long : ∃ s', Sleep mega 2500000000#32 (at_ 1000 3 false) s' false ∧ s'.t = 1002 ∧ secToTicks 16000000 (intToF 10000) = some 2500000000#32 :=
  ⟨aft mega (aft mega (at_ 1000 3 false) (quiet 1001)) (quiet 1002),
    .mk (r := 1000#32) (ticks_of_run (quiet 1001) (by decide +kernel)) (.stop (r := 1001#32) (ticks_of_run (quiet 1002) (by decide +kernel)) (by decide +kernel)),
    by decide +kernel, by decide +kernel⟩

/-- SAMD21: the count within a tick runs down, so the time goes backwards inside every tick. -/
theorem C67_violated_samd (hz hertz t : Nat) (hz0 : 0 < hz) (hhz : hz ≤ 1000000000) (h : t % (hz / hertz) + 1 < hz / hertz) :
    samdNs hz hertz (t + 1) < samdNs hz hertz t := by
  unfold samdNs
  generalize hz / hertz = R at *
  have e := Nat.div_add_mod t R
  have e1 : (t + 1) / R = t / R := by
    rw [Nat.div_eq_iff (by omega)]
    rw [Nat.mul_comm] at e; omega
  have e2 : (t + 1) % R = t % R + 1 := by
    have := Nat.div_add_mod (t + 1) R
    rw [e1] at this; omega
  simp only []
  rw [e1, e2]
  have hc : 0 < 1000000000 / hz := Nat.div_pos hhz hz0
  have : R - 1 - (t % R + 1) < R - 1 - t % R := by omega
  have := Nat.mul_lt_mul_of_pos_right this hc
  omega

example : samdNs 48000000 1000 1 < samdNs 48000000 1000 0 := C67_violated_samd 48000000 1000 0 (by decide) (by decide) (by decide)

end Snek.Time
