import Verif.Proofs.AvrPins
import Verif.Props.C82
/-!
# C83: Pins of the other AVR boards

`boards` (Spec/AvrPins): Mega, ItsyBitsy, µduino and Nano Every, each with its chip and wiring. `drives` is what a pin of the chip does with these registers, by the data
sheet; `level` what it should do after the calls `told`.
-/
namespace Snek.AvrPins
open Spec Spec.AvrPins

/-! ## The boards -/

/-- Pins for which what is proved is false: pin 6 of the ATmega32U4 boards. -/
def Bad (c : Chip) (q : Nat) : Bool := c == .m32u4 && q == 6

/-- What the tables must say. -/
def Fits (b : Board) (c : Chip) (wire : Nat → Option (Port × Nat)) (q : Nat) : Prop :=
  match wire q with
  | some (g, k) => (b.pin q).port = g ∧ (b.pin q).bit = k ∧ Alone b q ∧ (Bad c q = false → (b.pin q).pwm = oc c g k)
  | none => True

instance (b : Board) (c : Chip) (wire : Nat → Option (Port × Nat)) (q : Nat) : Decidable (Fits b c wire q) := by
  unfold Fits
  split <;> infer_instance

instance (b : Board) : Decidable (WFB b) := by
  unfold WFB
  cases b.tone <;> infer_instance

instance (b : Board) : Decidable (Loose b) := by
  unfold Loose
  have : ∀ q, Decidable (match (b.pin q).pwm with | some w => ∀ x ∈ b.modes, x.1 = w.2.2.1 → x.2.getLsbD w.2.2.2 = false | none => True) := by
    intro q
    cases (b.pin q).pwm <;> infer_instance
  infer_instance

theorem boards_wf : ∀ x ∈ boards, WFB x.1 ∧ Loose x.1 ∧ (∀ q < x.1.n, Fits x.1 x.2.1 x.2.2 q) := by decide +kernel

/-- A pin of the diagram is in the tables. -/
theorem wire_lt : ∀ x ∈ boards, ∀ q g k, x.2.2 q = some (g, k) → q < x.1.n := by
  have hm : mega.n = 70 := by decide
  have hi : itsy.n = 23 := by decide
  have hu : uduino.n = 23 := by decide
  have he : every.n = 22 := by decide
  intro x hx q g k h
  simp only [boards, List.mem_cons, List.not_mem_nil, or_false] at hx
  rcases hx with rfl | rfl | rfl | rfl
  · simp only at h ⊢
    rw [hm]
    apply Nat.lt_of_not_le
    intro hq
    unfold megaWire at h
    rw [if_neg (by omega), if_neg (by omega), if_neg (by omega), if_neg (by omega), if_neg (by omega), if_neg (by omega), if_neg (by omega), if_neg (by omega), if_neg (by omega),
      if_neg (by omega), if_neg (by omega), if_neg (by omega), if_neg (by omega), if_neg (by omega), if_neg (by omega), if_neg (by omega), if_neg (by omega), if_neg (by omega),
      if_neg (by omega)] at h
    cases h
  · simp only at h ⊢
    rw [hi]
    unfold u4Wire at h
    split at h <;> first | omega | cases h
  · simp only at h ⊢
    rw [hu]
    unfold u4Wire at h
    split at h <;> first | omega | cases h
  · simp only at h ⊢
    rw [he]
    unfold everyWire at h
    split at h <;> first | omega | cases h

theorem fits {x} (hx : x ∈ boards) {q g k} (h : x.2.2 q = some (g, k)) :
    q < x.1.n ∧ (x.1.pin q).port = g ∧ (x.1.pin q).bit = k ∧ Alone x.1 q ∧ (Bad x.2.1 q = false → (x.1.pin q).pwm = oc x.2.1 g k) := by
  have hq := wire_lt x hx q g k h
  have := (boards_wf x hx).2.2 q hq
  unfold Fits at this
  rw [h] at this
  exact ⟨hq, this⟩

/-- The tables connect every pin of the diagrams to its own port bit, and use for its power the timer output the chip has there. Missing: pin 6 of the ATmega32U4
boards, see `C83_violated_pin6`. -/
theorem C83_boards_partial : ∀ x ∈ boards, ∀ q g k, x.2.2 q = some (g, k) →
    (x.1.pin q).port = g ∧ (x.1.pin q).bit = k ∧ (Bad x.2.1 q = false → (x.1.pin q).pwm = oc x.2.1 g k) ∧
    ∀ q' g' k', x.2.2 q' = some (g', k') → q' ≠ q → ¬ (g' = g ∧ k' = k) := by
  intro x hx q g k h
  obtain ⟨_, h1, h2, h3, h4⟩ := fits hx h
  refine ⟨h1, h2, h4, fun q' g' k' h' hne => ?_⟩
  obtain ⟨f0, f1, f2, _⟩ := fits hx h'
  have := (h3 q' f0 hne).1
  rw [f1, f2, h1, h2] at this
  exact fun ⟨e1, e2⟩ => this ⟨e1.symm, e2.symm⟩

/-! ## The power -/

theorem toPower_some (b : Board) (v : BitVec 32) (hn : isNanF v = false) : ∃ x, toPower b v = some x := by
  unfold toPower
  split
  · rw [Pins.powerWord_eq v hn]; exact ⟨_, rfl⟩
  · rw [Gpio.powerByte_eq v hn]; exact ⟨_, rfl⟩

/-- `setpower(v)` for `v` from 0 to 1: `full` times `v` to the nearest whole number (up to 3/256 more than a half). -/
theorem C83_power (b : Board) (v : BitVec 32) (hf : FinNum v) (h0 : 0 ≤ f32val v) (h1 : f32val v ≤ 2 ^ 149) :
    ∃ x, toPower b v = some x ∧ 256 * (x.toNat * 2 ^ 149 : Int) ≤ 256 * ((b.full.toNat : Int) * f32val v) + 131 * 2 ^ 149 ∧
      256 * ((b.full.toNat : Int) * f32val v) ≤ 256 * (x.toNat * 2 ^ 149 : Int) + 131 * 2 ^ 149 := by
  unfold toPower Board.full
  cases hw : b.wide
  · obtain ⟨y, e1, e2, e3⟩ := Gpio.C70_power v hf h0 h1
    simp only [Bool.false_eq_true, if_false]
    rw [e1]
    refine ⟨_, rfl, ?_⟩
    have ey : (BitVec.zeroExtend 16 y).toNat = y.toNat := by
      simp only [BitVec.truncate_eq_setWidth, BitVec.toNat_setWidth]; omega
    rw [ey, show ((255 : BitVec 16).toNat : Int) = 255 from rfl]
    generalize (2 : Int) ^ 149 = U at *
    generalize (y.toNat : Int) * U = N at *
    omega
  · obtain ⟨n, e1, e2, e3⟩ := Pins.C82_power v hf h0 h1
    simp only [if_true]
    have hle : n < 65536 := by
      rw [Pins.powerWord_eq v (fin_flags hf).1] at e1
      simp only [Option.some.injEq] at e1
      have := Pins.half65535_le (fkey v)
      omega
    rw [e1]
    refine ⟨_, rfl, ?_⟩
    have ey : (BitVec.ofNat 16 n).toNat = n := by rw [BitVec.toNat_ofNat]; omega
    rw [ey, show ((65535 : BitVec 16).toNat : Int) = 65535 from rfl]
    exact ⟨e2, e3⟩

/-- Below 0 it is 0, above 1 (also infinite) it is full power. -/
theorem C83_power_limits (b : Board) (v : BitVec 32) : (fltF v 0 = true → toPower b v = some 0) ∧ (fltF 0x3f800000 v = true → toPower b v = some b.full) := by
  obtain ⟨a1, a2⟩ := Gpio.C70_power_limits v
  obtain ⟨b1, b2⟩ := Pins.C82_power_limits v
  unfold toPower Board.full
  cases hw : b.wide
  · simp only [Bool.false_eq_true, if_false]
    exact ⟨fun h => by rw [a1 h]; rfl, fun h => by rw [a2 h]; rfl⟩
  · simp only [if_true]
    exact ⟨fun h => by rw [b1 h]; rfl, fun h => by rw [b2 h]; rfl⟩

/-! ## The levels -/

/-- Arguments: pins that exist, powers that are numbers. -/
def Valid (b : Board) : Call → Prop
  | .talkto p d => p < b.n ∧ d < b.n
  | .read p => p < b.n
  | .pullnone p => p < b.n
  | .pullup p => p < b.n
  | .setpower v => isNanF v = false
  | _ => True

theorem valid_ok {b : Board} {c : Call} (h : Valid b c) : Ok b c := by
  cases c with
  | setpower v => exact toPower_some b v h
  | talkto p d => exact h
  | read p => exact h
  | pullnone p => exact h
  | pullup p => exact h
  | _ => trivial

theorem or_ff (v : BitVec 16) : (v ||| 0xff).toNat / 256 = v.toNat / 256 ∧ (v ||| 0xff).toNat % 256 = 255 := by
  have e : (v ||| 0xff).toNat = v.toNat ||| 255 := by rw [BitVec.toNat_or]; rfl
  rw [e]
  constructor
  · have := Nat.or_div_two_pow (a := v.toNat) (b := 255) (n := 8)
    simpa using this
  · have := Nat.or_mod_two_pow (a := v.toNat) (b := 255) (n := 8)
    have h2 : v.toNat % 256 ||| 255 = 255 := by
      have : ∀ y < 256, y ||| 255 = 255 := by decide +kernel
      exact this _ (Nat.mod_lt _ (by decide))
    simpa [h2] using this

/-- How the compare registers of the boards are used. -/
def Timed (b : Board) : Prop := ∀ q < b.n, match (b.pin q).pwm with
  | some w => if b.wide then w.2.2.1 = w.1 ∧ (w.1 = .tca0 ∨ w.1 = .tcb0 ∨ w.1 = .tcb1) else w.1 ≠ .tcb0 ∧ w.1 ≠ .tcb1
  | none => True

instance (b : Board) : Decidable (Timed b) := by
  unfold Timed
  have : ∀ q, Decidable (match (b.pin q).pwm with
    | some w => if b.wide then w.2.2.1 = w.1 ∧ (w.1 = .tca0 ∨ w.1 = .tcb0 ∨ w.1 = .tcb1) else w.1 ≠ .tcb0 ∧ w.1 ≠ .tcb1 | none => True) := by
    intro q
    cases (b.pin q).pwm <;> infer_instance
  infer_instance

theorem boards_timed : ∀ x ∈ boards, Timed x.1 := by decide +kernel

theorem shown_compare {b : Board} (ht : Timed b) {q : Nat} (hq : q < b.n) {w} (hw : (b.pin q).pwm = some w) {v : BitVec 16} (hv : v < b.full) :
    duty w.1 (compare b w.2.2.1 v).toNat = shown b.full.toNat w.1 v.toNat := by
  have h := ht q hq
  rw [hw] at h
  have hne : v.toNat ≠ b.full.toNat := by have : v.toNat < b.full.toNat := hv; omega
  obtain ⟨o1, o2⟩ := or_ff v
  unfold duty shown compare
  cases hb : b.wide <;> rw [hb] at h
  · simp only [Bool.false_eq_true, if_false] at h
    simp [h.1, h.2]
  · simp only [if_true] at h
    rw [h.1]
    rcases h.2 with e | e | e
    · rw [e]; simp
    · rw [e, if_pos (.inl rfl), if_pos (by decide), if_pos ⟨.inl rfl, hne⟩, o1, o2]; omega
    · rw [e, if_pos (.inr rfl), if_pos (by decide), if_pos ⟨.inr rfl, hne⟩, o1, o2]; omega

theorem drives_of {b : Board} {c : Chip} {R s a} (h : Inv b R s a) (ht : Timed b) {q : Nat} (hq : q < b.n) (ha : Alone b q) (hr : ¬ R q)
    (hw : (b.pin q).pwm = oc c (b.pin q).port (b.pin q).bit) (ho : isOut b s q = true) :
    drives c b.full.toNat s (b.pin q).port (b.pin q).bit = some (level c b.full.toNat a q (b.pin q).port (b.pin q).bit) := by
  obtain ⟨v, h1, h2⟩ := h.good q hq ha hr
  have hz : (v != 0) = decide (v.toNat ≠ 0) := by
    rw [Bool.eq_iff_iff]
    simp only [bne_iff_ne, decide_eq_true_eq, ne_eq, ← BitVec.toNat_inj]
    rfl
  have hle := h.le q
  unfold drives
  extract_lets port
  rw [if_pos (show (s.ddr (b.pin q).port).getLsbD (b.pin q).bit = true from ho)]
  unfold level
  congr 1
  unfold Shows at h2
  unfold raw at h1
  rw [← hw]
  have hport : port = if (s.out (b.pin q).port).getLsbD (b.pin q).bit = true then b.full.toNat else 0 := rfl
  clear_value port
  subst hport
  cases hp : (b.pin q).pwm with
  | none =>
    rw [hp] at h2
    simp only at h2 ⊢
    rw [h2, hz]
    rcases Bool.eq_false_or_eq_true (a.on q) with e | e
    · rw [e] at h1 ⊢
      simp only [if_true] at h1 ⊢
      rw [h1]
      by_cases h3 : a.power q = 0 <;> simp [h3]
    · rw [e] at h1 ⊢
      simp only [Bool.false_eq_true, if_false] at h1 ⊢
      rw [h1]; simp
  | some w =>
    rw [hp] at h2
    obtain ⟨t, ch, r, j⟩ := w
    simp only at h2 ⊢
    by_cases hv : 0 < v ∧ v < b.full
    · rw [if_pos hv] at h2
      rw [if_pos h2.1, h2.2]
      have hpos : 0 < v.toNat := hv.1
      have e : a.on q = true := by
        rcases Bool.eq_false_or_eq_true (a.on q) with e | e
        · exact e
        · rw [e] at h1; simp at h1; omega
      rw [e] at h1 ⊢
      simp only [if_true] at h1 ⊢
      rw [← h1]
      exact shown_compare ht hq hp hv.2
    · rw [if_neg hv] at h2
      rw [if_neg (by rw [h2.1]; simp), h2.2, hz]
      rcases Bool.eq_false_or_eq_true (a.on q) with e | e
      · rw [e] at h1 ⊢
        simp only [if_true] at h1 ⊢
        have hcase : v.toNat = 0 ∨ v.toNat = b.full.toNat := by
          by_cases hx : v.toNat = 0
          · exact .inl hx
          · right
            have : ¬ v.toNat < b.full.toNat := fun h => hv ⟨(Nat.pos_of_ne_zero hx : 0 < v.toNat), h⟩
            omega
        have hfull : b.full.toNat ≠ 0 := by unfold Board.full; split <;> decide
        rw [← h1]
        rcases hcase with hx | hx
        · rw [hx]; simp [shown]
        · rw [hx]; simp [shown, hfull]
      · rw [e] at h1 ⊢
        simp only [Bool.false_eq_true, if_false] at h1 ⊢
        rw [h1]; simp

open Classical in
/-- After every sequence of calls, every pin of the diagram that was talked to and never read drives what the last commands for it said, whatever happened to the other
pins. Missing: pins that are also read, pin 6 of the ATmega32U4 boards, pin 5 of the Nano Every with `stopall`: there it is false. -/
theorem C83_level_partial (x) (hx : x ∈ boards) (l : List Call) (hl : ∀ c ∈ l, Valid x.1 c) :
    ∃ s, calls x.1 l (init x.1) = some s ∧ ∀ p d q g k, .talkto p d ∈ l → q = p ∨ q = d → .read q ∉ l → Bad x.2.1 q = false → (x.1.tone = some q → .stopall ∉ l) →
      x.2.2 q = some (g, k) →
      drives x.2.1 x.1.full.toNat s g k = some (level x.2.1 x.1.full.toNat (l.foldl (told (pwOf x.1)) (start x.1.full.toNat)) q g k) := by
  obtain ⟨w1, w2, _⟩ := boards_wf x hx
  obtain ⟨s, h1, h2, h3⟩ := calls_inv (R := fun q => .read q ∈ l ∨ (x.1.tone = some q ∧ .stopall ∈ l)) w1 l (init x.1) (start x.1.full.toNat) (fun c h => valid_ok (hl c h))
    (fun p h => .inl h) (fun h t e => .inr ⟨e, h⟩) (init_inv _ w1 w2)
  refine ⟨s, h1, fun p d q g k hm hq hr hbad ht hw => ?_⟩
  obtain ⟨f1, rfl, rfl, f4, f5⟩ := fits hx hw
  refine drives_of h2 (boards_timed x hx) f1 f4 (fun h => ?_) (f5 hbad) ?_
  · rcases h with h | ⟨h, h'⟩
    · exact hr h
    · exact ht h h'
  · rw [h3 q f1 f4 hr, decide_eq_true ⟨p, d, hm, hq⟩, Bool.or_true]

theorem drives_none {c : Chip} {n : Nat} {s : St} {g : Port} {k : Nat} (h : (s.ddr g).getLsbD k = false) : drives c n s g k = none := by
  unfold drives
  rw [if_neg (by rw [h]; simp)]

open Classical in
/-- A pin that is never talked to drives nothing: it stays an input. -/
theorem C83_input (x) (hx : x ∈ boards) (l : List Call) (hl : ∀ c ∈ l, Valid x.1 c) (q : Nat) (g : Port) (k : Nat) (hw : x.2.2 q = some (g, k))
    (ht : ∀ p d, .talkto p d ∈ l → q ≠ p ∧ q ≠ d) : ∃ s, calls x.1 l (init x.1) = some s ∧ drives x.2.1 x.1.full.toNat s g k = none := by
  obtain ⟨w1, w2, _⟩ := boards_wf x hx
  obtain ⟨f1, rfl, rfl, f4, _⟩ := fits hx hw
  have gen : ∀ (l : List Call) (s : St) (a : Told), (∀ c ∈ l, Valid x.1 c) → (∀ p d, .talkto p d ∈ l → q ≠ p ∧ q ≠ d) → Inv x.1 (fun _ => True) s a → isOut x.1 s q = false →
      ∃ s', calls x.1 l s = some s' ∧ isOut x.1 s' q = false := by
    intro l
    induction l with
    | nil => intro s a _ _ _ h0; exact ⟨s, rfl, h0⟩
    | cons c l ih =>
      intro s a hl ht hi h0
      have hc := valid_ok (hl c (.head _))
      obtain ⟨s1, e1, i1, _⟩ := call_inv w1 c hc (fun _ _ => trivial) (fun _ _ _ => trivial) hi
      have o1 : isOut x.1 s1 q = false := by
        by_cases hr : c = .read q
        · subst hr
          cases e1
          show ((clrDir (x.1.pin q) s).ddr _).getLsbD _ = false
          rw [clrDir_bit (w1.2.1 q f1)]; simp
        · rw [out_call w1 c hc (fun _ _ => trivial) (fun _ _ _ => trivial) hi e1 f4 hr, h0, Bool.false_or]
          refine decide_eq_false ?_
          rintro ⟨p, d, rfl, h⟩
          obtain ⟨n1, n2⟩ := ht p d (.head _)
          rcases h with h | h
          · exact n1 h
          · exact n2 h
      obtain ⟨s', e2, o2⟩ := ih s1 _ (fun c h => hl c (.tail _ h)) (fun p d h => ht p d (.tail _ h)) i1 o1
      exact ⟨s', by unfold calls; rw [e1]; exact e2, o2⟩
  obtain ⟨s, e, o⟩ := gen l (init x.1) _ hl ht (init_inv _ w1 w2) (isOut_init _ _)
  exact ⟨s, e, drives_none o⟩

/-! ## Reading -/

/-- `read(q)` makes the pin an input, with the pull-up connected as `pullup` and `pullnone` said. Missing: the pull-up on the Nano Every, which it never connects. -/
theorem C83_read_partial (x) (hx : x ∈ boards) (s : St) (q : Nat) (g : Port) (k : Nat) (hw : x.2.2 q = some (g, k)) :
    ∃ s', call x.1 (.read q) s = some s' ∧ drives x.2.1 x.1.full.toNat s' g k = none ∧ (x.2.1 ≠ .m4809 → pulled x.2.1 s' g k = isPull x.1 s q) := by
  obtain ⟨w1, _, _⟩ := boards_wf x hx
  obtain ⟨f1, rfl, rfl, _, _⟩ := fits hx hw
  have hd : ((setDirIn x.1 q s).ddr (x.1.pin q).port).getLsbD (x.1.pin q).bit = false := by
    show ((clrDir (x.1.pin q) s).ddr _).getLsbD _ = false
    rw [clrDir_bit (w1.2.1 q f1)]; simp
  refine ⟨_, rfl, drives_none hd, fun hc => ?_⟩
  unfold pulled
  rw [hd, decide_eq_true hc]
  simp only [Bool.true_and, Bool.not_false]
  exact setPort_bit (w1.2.1 q f1) _ _

/-- `pullup(p)` and `pullnone(p)` concern just that pin and touch no register; at the start the digital pins have a pull-up. -/
theorem C83_pull (b : Board) (s : St) (p : Nat) :
    (∃ s', call b (.pullup p) s = some s' ∧ (s'.ddr, s'.out, s'.ocr, s'.tcc) = (s.ddr, s.out, s.ocr, s.tcc) ∧ ∀ q, isPull b s' q = (isPull b s q || decide (q = p))) ∧
    (∃ s', call b (.pullnone p) s = some s' ∧ (s'.ddr, s'.out, s'.ocr, s'.tcc) = (s.ddr, s.out, s.ocr, s.tcc) ∧ ∀ q, isPull b s' q = (isPull b s q && !decide (q = p))) ∧
    ∀ q, isPull b (init b) q = decide (q < b.digital) :=
  ⟨⟨_, rfl, rfl, fun q => flag_raise b _ p q⟩, ⟨_, rfl, rfl, fun q => flag_lower b _ p q⟩, fun q => flag_pulls b _ q⟩

/-- What the tables must say about the converter: the input that is the pin; `none` for digital pins. The Mega's port K is left out. -/
def FitsAdc (b : Board) (c : Chip) (wire : Nat → Option (Port × Nat)) (q : Nat) : Prop := match wire q with
  | some (g, k) => g ≠ .pk → (b.pin q).adc = analog c g k
  | none => True

instance (b : Board) (c : Chip) (wire : Nat → Option (Port × Nat)) (q : Nat) : Decidable (FitsAdc b c wire q) := by
  unfold FitsAdc
  split <;> infer_instance

theorem boards_adc : ∀ x ∈ boards, ∀ q < x.1.n, FitsAdc x.1 x.2.1 x.2.2 q := by decide +kernel

/-- A pin that is no input of the converter reads as 0 or 1. One that is reads as the nearest number to the converter's result for
this very pin, of 1023; on the ATmega32U4 with its pull-up, as 0 or 1. Missing: A8 to A15 of the Mega, where it is false. -/
theorem C83_read_value_partial (x) (hx : x ∈ boards) (s : St) (q : Nat) (g : Port) (k : Nat) (hw : x.2.2 q = some (g, k)) (hk : g ≠ .pk) (pins : Port → BitVec 8) (adc : Nat → Nat) :
    (analog x.2.1 g k = none ∨ (x.1.adcPull = true ∧ isPull x.1 s q = true) → readValue x.1 s q pins adc = if (pins g).getLsbD k then 0x3f800000 else 0) ∧
    ∀ i, analog x.2.1 g k = some i → (x.1.adcPull = true → isPull x.1 s q = false) → adc i ≤ 1023 → Rounded (readValue x.1 s q pins adc) (adc i * 2 ^ 149) 1023 := by
  obtain ⟨f1, f2, f3, _, _⟩ := fits hx hw
  have ha := boards_adc x hx q f1
  unfold FitsAdc at ha
  rw [hw] at ha
  replace ha := ha hk
  have h01 : intToF (if (pins g).getLsbD k = true then 1 else 0) = if (pins g).getLsbD k = true then 0x3f800000 else 0 := by
    rcases Bool.eq_false_or_eq_true ((pins g).getLsbD k) with e | e <;> rw [e] <;> decide +kernel
  constructor
  · intro h
    have : selects x.1 s q = none := by
      unfold selects
      rcases h with h | ⟨h, h'⟩
      · rw [ha, h]; simp
      · rw [h, h']; simp
    unfold readValue
    rw [this]
    simp only
    rw [f2, f3]
    exact h01
  · intro i h2 h3 h4
    have : selects x.1 s q = some i := by
      unfold selects
      rw [ha, h2, if_neg]
      intro h
      simp only [Bool.and_eq_true] at h
      rw [h3 h.1] at h
      exact absurd h.2 (by simp)
    unfold readValue
    rw [this]
    simp only
    have d1 : Denotes (intToF (adc i)) (adc i) := intToF_denotes ⟨by omega, by omega⟩
    have d2 : Denotes (intToF 1023) 1023 := intToF_denotes ⟨by omega, by omega⟩
    have hz : fval (intToF 1023) ≠ 0 := by decide +kernel
    have h := fdiv_rounded (intToF (adc i)) (intToF 1023) d1.1 d2.1 hz
    have hs : (f32val (intToF 1023)).sign = 1 ∧ (f32val (intToF 1023)).natAbs = 1023 * 2 ^ 149 := by decide +kernel
    rw [hs.1, hs.2, d1.2, Int.mul_one] at h
    refine Gpio.rounded_scale (k := 2 ^ 149) (by decide +kernel) ?_
    rw [show (((2 ^ 149 : Nat)) : Int) = 2 ^ 149 by decide +kernel]
    exact h

/-! ## Reset -/

/-- `reset()` leaves every pin an input without pull-up, whatever came before; on the Mega and the Nano Every it is a new start. Missing: the new start on the ATmega32U4 boards. -/
theorem C83_reset_partial (x) (hx : x ∈ boards) (s : St) :
    (∀ g k, drives x.2.1 x.1.full.toNat (reset x.1 s) g k = none ∧ pulled x.2.1 (reset x.1 s) g k = false) ∧ (x.2.1 ≠ .m32u4 → reset x.1 s = init x.1) := by
  have hz : (reset x.1 s).ddr = (fun _ => 0) ∧ (reset x.1 s).out = (fun _ => 0) := by
    unfold reset
    split <;> exact ⟨rfl, rfl⟩
  refine ⟨fun g k => ⟨drives_none (by rw [hz.1]; simp), ?_⟩, fun h => ?_⟩
  · unfold pulled; rw [hz.2]; simp
  · have : x.1.clears = false := by
      have := show ∀ x ∈ boards, x.2.1 ≠ .m32u4 → x.1.clears = false by decide +kernel
      exact this x hx h
    unfold reset
    rw [if_neg (by rw [this]; simp)]

/-! ## The hypotheses can be met -/

/-- A motor on pins 3 and 12, a lamp on pin 13, a switch on pin 8. -/
def demo : List Call := [.pullup 8, .read 8, .talkto 3 12, .setpower 0x3f000000, .on, .setleft, .talkto 13 13, .on, .read 8, .talkto 3 12, .setright]

example : ∀ x ∈ boards, ∀ c ∈ demo, Valid x.1 c := by
  intro x hx c hc
  have hn : 22 ≤ x.1.n := (show ∀ x ∈ boards, 22 ≤ x.1.n by decide +kernel) x hx
  revert c
  simp [demo, Valid, isNanF]
  omega
example : .talkto 3 12 ∈ demo ∧ .read 3 ∉ demo ∧ .read 12 ∉ demo ∧ .stopall ∉ demo := by simp [demo]
example : (calls mega demo (init mega)).map (fun s => (drives .m2560 255 s .pe 5, drives .m2560 255 s .pb 6, drives .m2560 255 s .pb 7, drives .m2560 255 s .ph 5)) =
    some (some 128, some 0, some 255, none) := by decide +kernel
example : megaWire 3 = some (.pe, 5) ∧ megaWire 12 = some (.pb, 6) ∧ megaWire 13 = some (.pb, 7) ∧ megaWire 8 = some (.ph, 5) := by decide
example : (calls itsy demo (init itsy)).map (fun s => (drives .m32u4 255 s .pd 0, drives .m32u4 255 s .pd 6, drives .m32u4 255 s .pc 7, drives .m32u4 255 s .pb 4)) =
    some (some 128, some 0, some 255, none) := by decide +kernel
example : (calls every demo (init every)).map (fun s => (drives .m4809 65535 s .pf 5, drives .m4809 65535 s .pe 1, drives .m4809 65535 s .pe 2, drives .m4809 65535 s .pe 3)) =
    some (some 32768, some 0, some 65535, none) := by decide +kernel
example : selects every (init every) 18 = some 12 ∧ selects itsy (init itsy) 14 = some 7 ∧ selects mega (init mega) 54 = some 0 := by decide +kernel

/-! ## Where it fails -/

/-- Pin 6 of the ATmega32U4 boards: the bit that connects it to its timer is written to another register. At half power it stays off. -/
theorem C83_violated_pin6 : ∃ l : List Call, (∀ c ∈ l, Valid itsy c) ∧ (∃ s, calls itsy l (init itsy) = some s ∧ drives .m32u4 255 s .pd 7 = some 0) ∧
    u4Wire true 6 = some (.pd, 7) ∧ level .m32u4 255 (l.foldl (told (pwOf itsy)) (start 255)) 6 .pd 7 = 128 :=
  ⟨[.talkto 6 6, .setpower 0x3f000000, .on], by simp [Valid, isNanF]; decide, ⟨_, rfl, by decide +kernel⟩, rfl, by decide +kernel⟩

/-- Nano Every: `stopall()` takes pin 5 off its timer, but its output bit, left from when it was fully on, then drives it high. -/
theorem C83_violated_stopall : ∃ l : List Call, (∀ c ∈ l, Valid every c) ∧ (∃ s, calls every (l ++ [Call.stopall]) (init every) = some s ∧ drives .m4809 65535 s .pb 2 = some 65535) ∧
    level .m4809 65535 ((l ++ [Call.stopall]).foldl (told (pwOf every)) (start 65535)) 5 .pb 2 = 0 :=
  ⟨[.talkto 5 5, .on], by simp [Valid]; decide, ⟨_, rfl, by decide +kernel⟩, by decide +kernel⟩

/-- Nano Every: the pull-up is never connected. -/
theorem C83_violated_pullup (s : St) (g : Port) (k : Nat) : pulled .m4809 s g k = false := by simp [pulled]

/-- Mega: `read(A8)` selects another input than the pin's. -/
theorem C83_violated_a8 (s : St) : ∀ q < 8, selects mega s (62 + q) = some (8 + q) ∧ megaWire (62 + q) = some (.pk, q) ∧ analog .m2560 .pk q = some (32 + q) := by
  intro q hq
  have h1 : ∀ q < 8, (mega.pin (62 + q)).adc = some (8 + q) ∧ megaWire (62 + q) = some (.pk, q) ∧ analog .m2560 .pk q = some (32 + q) := by decide +kernel
  refine ⟨?_, (h1 q hq).2⟩
  unfold selects
  rw [show mega.adcPull = false from rfl, Bool.false_and]
  exact (h1 q hq).1

/-- µduino: pins 20, 21 and 22, which the board does not have, are accepted and all drive port B bit 0. -/
theorem C83_violated_uduino : uduino.n = 23 ∧ u4Wire false 20 = none ∧ uduino.pin 20 = io .pb 0 ∧ uduino.pin 21 = io .pb 0 ∧ uduino.pin 22 = io .pb 0 := by decide

/-- ItsyBitsy: MISO, MOSI and SCK have no pull-up at the start, although they are digital pins. -/
theorem C83_violated_spi : ∀ q, 20 ≤ q → q < 23 → isPull itsy (init itsy) q = false ∧ (itsy.pin q).adc = none := by
  intro q h1 h2
  refine ⟨by rw [(C83_pull itsy (init itsy) 0).2.2]; exact decide_eq_false (by show ¬ q < 14; omega), ?_⟩
  have : ∀ q < 23, 20 ≤ q → (itsy.pin q).adc = none := by decide +kernel
  exact this q h2 h1

/-- ATmega32U4 boards: after `reset()` a pin that was on is still on: `talkto` and `setpower` start it. -/
theorem C83_violated_reset : ∃ l l' : List Call, (∀ c ∈ l ++ l', Valid itsy c) ∧
    (∃ s s', calls itsy l (init itsy) = some s ∧ calls itsy l' (reset itsy s) = some s' ∧ drives .m32u4 255 s' .pb 5 = some 128) ∧
    level .m32u4 255 (l'.foldl (told (pwOf itsy)) (start 255)) 9 .pb 5 = 0 :=
  ⟨[.talkto 9 9, .on], [.talkto 9 9, .setpower 0x3f000000], by simp [Valid, isNanF]; decide, ⟨_, _, rfl, rfl, by decide +kernel⟩, by decide +kernel⟩

/-- On all boards: a pin that was read with its pull-up and is then talked to is driven high although it is off. -/
theorem C83_violated_after_read : ∀ x ∈ boards, ∃ s g k, calls x.1 [.read 8, .talkto 8 8] (init x.1) = some s ∧ x.2.2 8 = some (g, k) ∧
    drives x.2.1 x.1.full.toNat s g k = some x.1.full.toNat := by
  intro x hx
  simp only [boards, List.mem_cons, List.not_mem_nil, or_false] at hx
  rcases hx with rfl | rfl | rfl | rfl
  · exact ⟨_, .ph, 5, rfl, rfl, by decide +kernel⟩
  · exact ⟨_, .pb, 4, rfl, rfl, by decide +kernel⟩
  · exact ⟨_, .pb, 4, rfl, rfl, by decide +kernel⟩
  · exact ⟨_, .pe, 3, rfl, rfl, by decide +kernel⟩

/-- `setpower` of NaN converts it to a whole number: undefined. -/
theorem C83_violated_nan (b : Board) : toPower b 0x7fc00000 = none := by
  unfold toPower
  rw [show Pins.powerWord 0x7fc00000 = none by decide +kernel, show Gpio.powerByte 0x7fc00000 = none by decide +kernel]
  simp

end Snek.AvrPins
