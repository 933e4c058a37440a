import Verif.Spec.AvrPins
import Verif.Proofs.Gpio
/-! # Pins of the other AVR boards -/
namespace Snek.AvrPins
open Spec.AvrPins

theorem put_same {α β : Type} [DecidableEq α] (f : α → β) (q : α) (v : β) : put f q v q = v := if_pos rfl
theorem put_ne {α β : Type} [DecidableEq α] (f : α → β) {p q : α} (v : β) (h : p ≠ q) : put f q v p = f p := if_neg h

theorem bit_or {α : Type} [DecidableEq α] (f : α → BitVec 8) (g g' : α) (k j : Nat) (hk : k < 8) :
    (put f g (f g ||| 1#8 <<< k) g').getLsbD j = ((f g').getLsbD j || decide (g' = g ∧ j = k)) := by
  by_cases h : g' = g
  · subst h; rw [put_same, Gpio.or_bit _ _ _ hk]; simp
  · rw [put_ne _ _ h]; simp [h]

theorem bit_and {α : Type} [DecidableEq α] (f : α → BitVec 8) (g g' : α) (k j : Nat) (hk : k < 8) :
    (put f g (f g &&& ~~~ (1#8 <<< k)) g').getLsbD j = ((f g').getLsbD j && !decide (g' = g ∧ j = k)) := by
  by_cases h : g' = g
  · subst h; rw [put_same, Gpio.and_bit _ _ _ hk]; simp
  · rw [put_ne _ _ h]; simp [h]

/-! ## Flags -/

theorem divmod {p q : Nat} : (q / 8 = p / 8 ∧ q % 8 = p % 8) ↔ q = p := by omega

theorem flag_raise (b : Board) (f : Nat → BitVec 8) (p q : Nat) : flag b (raise b f p) q = (flag b f q || decide (q = p)) := by
  unfold flag raise
  cases b.packed
  · simp only [Bool.false_eq_true, if_false]
    by_cases h : q = p
    · subst h; rw [put_same]; simp
    · rw [put_ne _ _ h]; simp [h]
  · simp only [if_true]
    rw [bit_or _ _ _ _ _ (by omega)]
    simp only [divmod]

theorem flag_lower (b : Board) (f : Nat → BitVec 8) (p q : Nat) : flag b (lower b f p) q = (flag b f q && !decide (q = p)) := by
  unfold flag lower
  cases b.packed
  · simp only [Bool.false_eq_true, if_false]
    by_cases h : q = p
    · subst h; rw [put_same]; simp
    · rw [put_ne _ _ h]; simp [h]
  · simp only [if_true]
    rw [bit_and _ _ _ _ _ (by omega)]
    simp only [divmod]

theorem flag_zero (b : Board) (q : Nat) : flag b (fun _ => 0) q = false := by
  unfold flag
  cases b.packed <;> simp

theorem flag_pulls (b : Board) (n q : Nat) : flag b (pulls b n) q = decide (q < n) := by
  induction n with
  | zero => rw [show pulls b 0 = fun _ => 0 from rfl, flag_zero]; simp
  | succ n ih =>
    rw [show pulls b (n + 1) = raise b (pulls b n) n from rfl, flag_raise, ih, Bool.eq_iff_iff]
    simp only [Bool.or_eq_true, decide_eq_true_eq]
    omega

/-! ## Registers of one pin -/

/-- Bits are below 8. -/
def WF (e : Pin) : Prop := e.bit < 8 ∧ match e.pwm with | some w => w.2.2.2 < 8 | none => True

instance (e : Pin) : Decidable (WF e) := by
  unfold WF
  cases e.pwm <;> infer_instance

/-- Two pins share neither port bit nor compare register nor control bit. -/
def Apart (e e' : Pin) : Prop :=
  ¬ (e'.port = e.port ∧ e'.bit = e.bit) ∧
  match e.pwm, e'.pwm with
  | some w, some w' => ¬ (w'.1 = w.1 ∧ w'.2.1 = w.2.1) ∧ ¬ (w'.2.2.1 = w.2.2.1 ∧ w'.2.2.2 = w.2.2.2)
  | _, _ => True

instance (e e' : Pin) : Decidable (Apart e e') := by
  unfold Apart
  cases e.pwm <;> cases e'.pwm <;> infer_instance

/-- Only the output side of pin `e` differs. -/
structure Fr (e : Pin) (s s' : St) : Prop where
  ddr : s'.ddr = s.ddr
  out : ∀ g k, ¬ (g = e.port ∧ k = e.bit) → (s'.out g).getLsbD k = (s.out g).getLsbD k
  tcc : ∀ c j, (∀ w, e.pwm = some w → ¬ (c = w.2.2.1 ∧ j = w.2.2.2)) → (s'.tcc c).getLsbD j = (s.tcc c).getLsbD j
  ocr : ∀ t ch, (∀ w, e.pwm = some w → ¬ (t = w.1 ∧ ch = w.2.1)) → s'.ocr t ch = s.ocr t ch
  pp : s'.powerPin = s.powerPin
  dp : s'.dirPin = s.dirPin
  pw : s'.power = s.power
  on : s'.onPins = s.onPins
  pl : s'.pullPins = s.pullPins

theorem Fr.trans {e : Pin} {s t u : St} (a : Fr e s t) (b : Fr e t u) : Fr e s u :=
  ⟨b.ddr.trans a.ddr, fun g k h => (b.out g k h).trans (a.out g k h), fun c j h => (b.tcc c j h).trans (a.tcc c j h), fun t ch h => (b.ocr t ch h).trans (a.ocr t ch h),
   b.pp.trans a.pp, b.dp.trans a.dp, b.pw.trans a.pw, b.on.trans a.on, b.pl.trans a.pl⟩

theorem fr_setPort {e : Pin} (he : WF e) (v : Bool) (s : St) : Fr e s (setPort e v s) := by
  refine ⟨rfl, fun g k h => ?_, fun _ _ _ => rfl, fun _ _ _ => rfl, rfl, rfl, rfl, rfl, rfl⟩
  unfold setPort
  cases v
  · simp only [Bool.false_eq_true, if_false]
    rw [bit_and _ _ _ _ _ he.1, decide_eq_false h]; simp
  · simp only [if_true]
    rw [bit_or _ _ _ _ _ he.1, decide_eq_false h]; simp

theorem setPort_bit {e : Pin} (he : WF e) (v : Bool) (s : St) : ((setPort e v s).out e.port).getLsbD e.bit = v := by
  unfold setPort
  cases v
  · simp only [Bool.false_eq_true, if_false]
    rw [bit_and _ _ _ _ _ he.1]; simp
  · simp only [if_true]
    rw [bit_or _ _ _ _ _ he.1]; simp

theorem wf_pwm {e : Pin} {w} (he : WF e) (hw : e.pwm = some w) : w.2.2.2 < 8 := by
  have := he.2; rw [hw] at this; exact this

theorem fr_undim {e : Pin} {w} (he : WF e) (hw : e.pwm = some w) (s : St) : Fr e s (undim w s) := by
  refine ⟨rfl, fun _ _ _ => rfl, fun c j h => ?_, fun _ _ _ => rfl, rfl, rfl, rfl, rfl, rfl⟩
  unfold undim
  simp only
  rw [bit_and _ _ _ _ _ (wf_pwm he hw), decide_eq_false (h w hw)]; simp

theorem fr_dim (b : Board) {e : Pin} {w} (he : WF e) (hw : e.pwm = some w) (v : BitVec 16) (s : St) : Fr e s (dim b w v s) := by
  refine ⟨rfl, fun _ _ _ => rfl, fun c j h => ?_, fun t ch h => ?_, rfl, rfl, rfl, rfl, rfl⟩
  · unfold dim
    simp only
    rw [bit_or _ _ _ _ _ (wf_pwm he hw), decide_eq_false (h w hw)]; simp
  · unfold dim
    simp only
    by_cases h1 : t = w.1
    · subst h1
      rw [put_same, put_ne]
      exact fun h2 => h w hw ⟨rfl, h2⟩
    · rw [put_ne _ _ h1]

theorem fr_setTo (b : Board) {e : Pin} (he : WF e) (v : BitVec 16) (s : St) : Fr e s (setTo b e v s) := by
  unfold setTo
  cases hw : e.pwm with
  | none => exact fr_setPort he _ _
  | some w =>
    simp only
    split
    · exact fr_dim b he hw v s
    · exact (fr_undim he hw s).trans (fr_setPort he _ _)

/-- What the registers of a pin must say for this value. -/
def Shows (b : Board) (e : Pin) (s : St) (v : BitVec 16) : Prop :=
  match e.pwm with
  | none => (s.out e.port).getLsbD e.bit = (v != 0)
  | some w => if 0 < v ∧ v < b.full then (s.tcc w.2.2.1).getLsbD w.2.2.2 = true ∧ s.ocr w.1 w.2.1 = compare b w.2.2.1 v
      else (s.tcc w.2.2.1).getLsbD w.2.2.2 = false ∧ (s.out e.port).getLsbD e.bit = (v != 0)

theorem shows_setTo (b : Board) {e : Pin} (he : WF e) (v : BitVec 16) (s : St) : Shows b e (setTo b e v s) v := by
  unfold Shows setTo
  cases hw : e.pwm with
  | none => exact setPort_bit he _ _
  | some w =>
    simp only
    by_cases h : 0 < v ∧ v < b.full
    · rw [if_pos h, if_pos h]
      unfold dim
      simp only
      refine ⟨?_, ?_⟩
      · rw [bit_or _ _ _ _ _ (wf_pwm he hw)]; simp
      · rw [put_same, put_same]
    · rw [if_neg h, if_neg h]
      refine ⟨?_, setPort_bit he _ _⟩
      show ((undim w s).tcc w.2.2.1).getLsbD w.2.2.2 = false
      unfold undim
      simp only
      rw [bit_and _ _ _ _ _ (wf_pwm he hw)]; simp

theorem Shows.frame {b : Board} {e e' : Pin} {s s' : St} {v : BitVec 16} (ha : Apart e e') (hf : Fr e s s') (h : Shows b e' s v) : Shows b e' s' v := by
  have ho := hf.out e'.port e'.bit ha.1
  unfold Shows at *
  cases hw : e'.pwm with
  | none => rw [hw] at h; simp only at *; rw [ho]; exact h
  | some w' =>
    rw [hw] at h
    have hx := ha.2
    rw [hw] at hx
    have h1 : (s'.tcc w'.2.2.1).getLsbD w'.2.2.2 = (s.tcc w'.2.2.1).getLsbD w'.2.2.2 := by
      refine hf.tcc _ _ fun w hw' => ?_
      rw [hw'] at hx
      exact hx.2
    have h2 : s'.ocr w'.1 w'.2.1 = s.ocr w'.1 w'.2.1 := by
      refine hf.ocr _ _ fun w hw' => ?_
      rw [hw'] at hx
      exact hx.1
    simp only at *
    rw [h1, h2, ho]
    exact h

theorem Shows.regs {b : Board} {e : Pin} {s s' : St} {v : BitVec 16} (h1 : s'.out = s.out) (h2 : s'.tcc = s.tcc) (h3 : s'.ocr = s.ocr) (h : Shows b e s v) :
    Shows b e s' v := by
  unfold Shows at *
  rw [h1, h2, h3]
  exact h

/-! ## Boards -/

/-- Tables with bits below 8. -/
def WFB (b : Board) : Prop := 0 < b.n ∧ (∀ p < b.n, WF (b.pin p)) ∧ match b.tone with | some t => t < b.n | none => True

/-- The pin shares nothing with another one. -/
def Alone (b : Board) (q : Nat) : Prop := ∀ p < b.n, p ≠ q → Apart (b.pin p) (b.pin q)

instance (b : Board) (q : Nat) : Decidable (Alone b q) := by unfold Alone; infer_instance

/-- The output bit of a pin's direction. -/
def isOut (b : Board) (s : St) (q : Nat) : Bool := (s.ddr (b.pin q).port).getLsbD (b.pin q).bit

/-- The value asked for. -/
def raw (a : Told) (q : Nat) : Nat := if a.on q then a.power q else 0

/-- The variables agree with what was told, and so do the registers of the pins not in `R`. -/
structure Inv (b : Board) (R : Nat → Prop) (s : St) (a : Told) : Prop where
  cur : s.powerPin = a.cur
  dir : s.dirPin = a.dir
  cok : a.cur < b.n
  dok : a.dir < b.n
  on : ∀ q, isOn b s q = a.on q
  far : ∀ q, b.n ≤ q → a.on q = false
  pw : ∀ q, (s.power q).toNat = a.power q
  le : ∀ q, a.power q ≤ b.full.toNat
  good : ∀ q, q < b.n → Alone b q → ¬ R q → ∃ v : BitVec 16, v.toNat = raw a q ∧ Shows b (b.pin q) s v

theorem setOut_inv {b : Board} {R s a} (hb : WFB b) (p : Nat) (hp : p < b.n)
    (cur : s.powerPin = a.cur) (dir : s.dirPin = a.dir) (cok : a.cur < b.n) (dok : a.dir < b.n)
    (on : ∀ q, isOn b s q = a.on q) (far : ∀ q, b.n ≤ q → a.on q = false) (pw : ∀ q, (s.power q).toNat = a.power q)
    (le : ∀ q, a.power q ≤ b.full.toNat)
    (good : ∀ q, q < b.n → Alone b q → ¬ R q → q ≠ p → ∃ v : BitVec 16, v.toNat = raw a q ∧ Shows b (b.pin q) s v) :
    Inv b R (setOut b p s) a ∧ (setOut b p s).ddr = s.ddr := by
  have hf := fr_setTo b (hb.2.1 p hp) (want b s p) s
  refine ⟨⟨hf.pp.trans cur, hf.dp.trans dir, cok, dok, fun q => ?_, far, fun q => ?_, le, fun q hq ha hr => ?_⟩, hf.ddr⟩
  · rw [← on q]; unfold isOn setOut; rw [hf.on]
  · show ((setTo b (b.pin p) (want b s p) s).power q).toNat = _
    rw [hf.pw]; exact pw q
  · by_cases e : q = p
    · subst e
      refine ⟨want b s q, ?_, shows_setTo b (hb.2.1 q hp) _ s⟩
      unfold want raw
      rw [on]
      split
      · exact pw q
      · rfl
    · obtain ⟨v, h1, h2⟩ := good q hq ha hr e
      exact ⟨v, h1, h2.frame (ha p hp (Ne.symm e)) hf⟩

theorem raw_upd_on {a : Told} {p q : Nat} {v : Bool} (h : q ≠ p) : raw { a with on := upd a.on p v } q = raw a q := by
  unfold raw upd
  simp [h]

theorem on_inv {b : Board} {R s a} (hb : WFB b) (p : Nat) (hp : p < b.n) (h : Inv b R s a) :
    Inv b R (setOut b p (setOn b p s)) { a with on := upd a.on p true } ∧ (setOut b p (setOn b p s)).ddr = s.ddr := by
  refine setOut_inv (s := setOn b p s) hb p hp h.cur h.dir h.cok h.dok (fun q => ?_) (fun q hq => ?_) h.pw h.le fun q hq ha hr e => ?_
  · show flag b (raise b s.onPins p) q = _
    rw [flag_raise, show flag b s.onPins q = a.on q from h.on q]
    unfold upd
    by_cases e : q = p <;> simp [e]
  · unfold upd
    simp only
    rw [if_neg (by omega)]; exact h.far q hq
  · obtain ⟨v, h1, h2⟩ := h.good q hq ha hr
    exact ⟨v, by rw [raw_upd_on e]; exact h1, h2.regs rfl rfl rfl⟩

theorem off_inv {b : Board} {R s a} (hb : WFB b) (p : Nat) (hp : p < b.n) (h : Inv b R s a) :
    Inv b R (setOut b p (setOff b p s)) { a with on := upd a.on p false } ∧ (setOut b p (setOff b p s)).ddr = s.ddr := by
  refine setOut_inv (s := setOff b p s) hb p hp h.cur h.dir h.cok h.dok (fun q => ?_) (fun q hq => ?_) h.pw h.le fun q hq ha hr e => ?_
  · show flag b (lower b s.onPins p) q = _
    rw [flag_lower, show flag b s.onPins q = a.on q from h.on q]
    unfold upd
    by_cases e : q = p <;> simp [e]
  · unfold upd
    simp only
    split
    · rfl
    · exact h.far q hq
  · obtain ⟨v, h1, h2⟩ := h.good q hq ha hr
    exact ⟨v, by rw [raw_upd_on e]; exact h1, h2.regs rfl rfl rfl⟩

theorem stopOne_inv {b : Board} {R s a} (hb : WFB b) (p : Nat) (hp : p < b.n) (h : Inv b R s a) :
    Inv b R (stopOne b p s) { a with on := upd a.on p false } ∧ (stopOne b p s).ddr = s.ddr := by
  unfold stopOne
  rcases Bool.eq_false_or_eq_true (isOn b s p) with e | e
  · rw [if_pos e]; exact off_inv hb p hp h
  · rw [if_neg (by simp [e])]
    have : upd a.on p false = a.on := by
      funext q
      unfold upd
      split
      · rename_i hq; subst hq; rw [← h.on]; exact e.symm
      · rfl
    rw [this]
    exact ⟨h, rfl⟩

theorem stopFrom_inv {b : Board} {R} (hb : WFB b) (n p : Nat) (hn : p + n = b.n) (s : St) (a : Told) (h : Inv b R s a) :
    ∃ a', Inv b R (stopFrom b n p s) a' ∧ (stopFrom b n p s).ddr = s.ddr ∧ a'.cur = a.cur ∧ a'.dir = a.dir ∧ a'.power = a.power ∧
      ∀ q, a'.on q = (a.on q && decide (q < p)) := by
  induction n generalizing p s a with
  | zero =>
    refine ⟨a, h, rfl, rfl, rfl, rfl, fun q => ?_⟩
    by_cases hq : q < p
    · simp [hq]
    · rw [h.far q (by omega)]; rfl
  | succ n ih =>
    obtain ⟨h1, h2⟩ := stopOne_inv hb p (by omega) h
    obtain ⟨a', c1, c2, c3, c4, c5, c6⟩ := ih (p + 1) (by omega) (stopOne b p s) _ h1
    refine ⟨a', c1, c2.trans h2, c3, c4, c5, fun q => ?_⟩
    rw [c6]
    unfold upd
    simp only
    by_cases hq : q = p
    · subst hq; simp
    · rw [if_neg hq]
      congr 1
      simp only [decide_eq_decide]
      omega

theorem toneReset_inv {b : Board} {R s a} (hb : WFB b) (p : Nat) (hp : p < b.n) (hR : R p) (h : Inv b R s a) :
    Inv b R (toneReset b p s) { a with on := upd a.on p false } ∧ (toneReset b p s).ddr = s.ddr := by
  have key : ∀ s1 : St, Fr (b.pin p) s s1 → Inv b R (setOff b p s1) { a with on := upd a.on p false } := by
    intro s1 hf
    refine ⟨hf.pp.trans h.cur, hf.dp.trans h.dir, h.cok, h.dok, fun q => ?_, fun q hq => ?_, fun q => ?_, h.le, fun q hq ha hr => ?_⟩
    · show flag b (lower b s1.onPins p) q = _
      rw [flag_lower, hf.on, show flag b s.onPins q = a.on q from h.on q]
      unfold upd
      by_cases e : q = p <;> simp [e]
    · unfold upd
      simp only
      split
      · rfl
      · exact h.far q hq
    · show (s1.power q).toNat = _
      rw [hf.pw]; exact h.pw q
    · have e : q ≠ p := by rintro rfl; exact hr hR
      obtain ⟨v, h1, h2⟩ := h.good q hq ha hr
      exact ⟨v, by rw [raw_upd_on e]; exact h1, (h2.frame (ha p hp (Ne.symm e)) hf).regs rfl rfl rfl⟩
  unfold toneReset
  cases hw : (b.pin p).pwm with
  | none => exact ⟨key s ⟨rfl, fun _ _ _ => rfl, fun _ _ _ => rfl, fun _ _ _ => rfl, rfl, rfl, rfl, rfl, rfl⟩, rfl⟩
  | some w => exact ⟨key _ (fr_undim (hb.2.1 p hp) hw s), rfl⟩

theorem stopall_inv {b : Board} {R s a} (hb : WFB b) (hR : ∀ t, b.tone = some t → R t) (h : Inv b R s a) :
    Inv b R (stopall b s) { a with on := fun _ => false } ∧ (stopall b s).ddr = s.ddr := by
  have fin : ∀ s1 a1, Inv b R s1 a1 → s1.ddr = s.ddr → a1.cur = a.cur → a1.dir = a.dir → a1.power = a.power →
      Inv b R (stopFrom b b.n 0 s1) { a with on := fun _ => false } ∧ (stopFrom b b.n 0 s1).ddr = s.ddr := by
    intro s1 a1 h1 h2 h3 h4 h5
    obtain ⟨a', c1, c2, c3, c4, c5, c6⟩ := stopFrom_inv hb b.n 0 (by omega) s1 a1 h1
    have : a' = { a with on := fun _ => false } := by
      cases a'
      simp only [Told.mk.injEq]
      refine ⟨c3.trans h3, c4.trans h4, ?_, c5.trans h5⟩
      funext q
      exact (c6 q).trans (by simp)
    rw [← this]
    exact ⟨c1, c2.trans h2⟩
  unfold stopall
  cases ht : b.tone with
  | none => exact fin s a h rfl rfl rfl rfl
  | some t =>
    have htn : t < b.n := by have := hb.2.2; rw [ht] at this; exact this
    obtain ⟨h1, h2⟩ := toneReset_inv hb t htn (hR t ht) h
    exact fin _ _ h1 h2 rfl rfl rfl

/-! ## Directions -/

theorem dirOut_bit {b : Board} (hb : WFB b) {p : Nat} (hp : p < b.n) (s : St) (g : Port) (k : Nat) :
    ((setDirOut b p s).ddr g).getLsbD k = ((s.ddr g).getLsbD k || decide (g = (b.pin p).port ∧ k = (b.pin p).bit)) :=
  bit_or _ _ _ _ _ (hb.2.1 p hp).1

theorem clrDir_bit {e : Pin} (he : WF e) (s : St) (g : Port) (k : Nat) :
    ((clrDir e s).ddr g).getLsbD k = ((s.ddr g).getLsbD k && !decide (g = e.port ∧ k = e.bit)) :=
  bit_and _ _ _ _ _ he.1

/-! ## Histories -/

/-- A call with pins that exist and a power that is a number. -/
def Ok (b : Board) : Call → Prop
  | .talkto p d => p < b.n ∧ d < b.n
  | .setpower v => ∃ x, toPower b v = some x
  | .read p => p < b.n
  | .pullnone p => p < b.n
  | .pullup p => p < b.n
  | _ => True

/-- The number for a power. -/
def pwOf (b : Board) (v : BitVec 32) : Nat := match toPower b v with | some x => x.toNat | none => 0

theorem toPower_le {b : Board} {v : BitVec 32} {x : BitVec 16} (h : toPower b v = some x) : x.toNat ≤ b.full.toNat := by
  unfold toPower at h
  unfold Board.full
  cases hw : b.wide <;> rw [hw] at h
  · simp only [Bool.false_eq_true, if_false, Option.map_eq_some_iff] at h
    obtain ⟨y, _, rfl⟩ := h
    simp only [Bool.false_eq_true, if_false, BitVec.truncate_eq_setWidth, BitVec.toNat_setWidth]
    have : (255 : BitVec 16).toNat = 255 := rfl
    omega
  · simp only [if_true]
    have : (65535 : BitVec 16).toNat = 65535 := rfl
    omega

theorem call_inv {b : Board} {R s a} (hb : WFB b) (c : Call) (hc : Ok b c) (hr : ∀ p, c = .read p → R p) (hs : c = .stopall → ∀ t, b.tone = some t → R t)
    (h : Inv b R s a) :
    ∃ s', call b c s = some s' ∧ Inv b R s' (told (pwOf b) a c) ∧
      ((∀ p d, c ≠ .talkto p d) → (∀ p, c ≠ .read p) → s'.ddr = s.ddr) := by
  cases c with
  | talkto p d =>
    refine ⟨_, rfl, ⟨rfl, rfl, hc.1, hc.2, h.on, h.far, h.pw, h.le, fun q hq ha hr => ?_⟩, fun h => absurd rfl (h p d)⟩
    obtain ⟨v, h1, h2⟩ := h.good q hq ha hr
    exact ⟨v, h1, h2.regs rfl rfl rfl⟩
  | setpower v =>
    obtain ⟨x, hx⟩ := hc
    refine ⟨_, by simp only [call, hx, Option.map_some]; rfl, ?_⟩
    have e : pwOf b v = x.toNat := by unfold pwOf; rw [hx]
    have hp : s.powerPin < b.n := by rw [h.cur]; exact h.cok
    obtain ⟨r1, r2⟩ := setOut_inv (R := R) (s := { s with power := put s.power s.powerPin x }) (a := told (pwOf b) a (.setpower v)) hb s.powerPin hp h.cur h.dir h.cok h.dok h.on h.far
      (fun q => by
        show (put s.power s.powerPin x q).toNat = upd a.power a.cur (pwOf b v) q
        unfold put upd
        rw [h.cur, e]
        split
        · rfl
        · exact h.pw q)
      (fun q => by
        show upd a.power a.cur (pwOf b v) q ≤ _
        unfold upd
        split
        · rw [e]; exact toPower_le hx
        · exact h.le q)
      (fun q hq ha hr hne => by
        obtain ⟨v', h1, h2⟩ := h.good q hq ha hr
        refine ⟨v', ?_, h2.regs rfl rfl rfl⟩
        rw [h1]
        unfold raw told upd
        simp only
        rw [if_neg (show ¬ q = a.cur by rw [← h.cur]; exact hne)])
    exact ⟨r1, fun _ _ => r2⟩
  | setleft =>
    obtain ⟨r1, r2⟩ := on_inv hb s.dirPin (by rw [h.dir]; exact h.dok) h
    refine ⟨_, rfl, ?_, fun _ _ => r2⟩
    rw [h.dir] at r1 ⊢; exact r1
  | setright =>
    obtain ⟨r1, r2⟩ := off_inv hb s.dirPin (by rw [h.dir]; exact h.dok) h
    refine ⟨_, rfl, ?_, fun _ _ => r2⟩
    rw [h.dir] at r1 ⊢; exact r1
  | on =>
    obtain ⟨r1, r2⟩ := on_inv hb s.powerPin (by rw [h.cur]; exact h.cok) h
    refine ⟨_, rfl, ?_, fun _ _ => r2⟩
    rw [h.cur] at r1 ⊢; exact r1
  | off =>
    obtain ⟨r1, r2⟩ := off_inv hb s.powerPin (by rw [h.cur]; exact h.cok) h
    refine ⟨_, rfl, ?_, fun _ _ => r2⟩
    rw [h.cur] at r1 ⊢; exact r1
  | pullnone p => exact ⟨_, rfl, ⟨h.cur, h.dir, h.cok, h.dok, h.on, h.far, h.pw, h.le, fun q hq ha hr => let ⟨v, h1, h2⟩ := h.good q hq ha hr; ⟨v, h1, h2.regs rfl rfl rfl⟩⟩, fun _ _ => rfl⟩
  | pullup p => exact ⟨_, rfl, ⟨h.cur, h.dir, h.cok, h.dok, h.on, h.far, h.pw, h.le, fun q hq ha hr => let ⟨v, h1, h2⟩ := h.good q hq ha hr; ⟨v, h1, h2.regs rfl rfl rfl⟩⟩, fun _ _ => rfl⟩
  | read p =>
    have hf := fr_setPort (hb.2.1 p hc) (isPull b s p) (clrDir (b.pin p) s)
    refine ⟨_, rfl, ⟨hf.pp.trans h.cur, hf.dp.trans h.dir, h.cok, h.dok, fun q => ?_, h.far, fun q => ?_, h.le, fun q hq ha hr' => ?_⟩, fun _ h => absurd rfl (h p)⟩
    · exact h.on q
    · exact h.pw q
    · have e : q ≠ p := by rintro rfl; exact hr' (hr q rfl)
      obtain ⟨v, h1, h2⟩ := h.good q hq ha hr'
      exact ⟨v, h1, (h2.regs (s' := clrDir (b.pin p) s) rfl rfl rfl).frame (ha p hc (Ne.symm e)) hf⟩
  | stopall =>
    obtain ⟨r1, r2⟩ := stopall_inv hb (hs rfl) h
    exact ⟨_, rfl, r1, fun _ _ => r2⟩

open Classical in
theorem out_call {b : Board} {R s a s'} (hb : WFB b) (c : Call) (hc : Ok b c) (hr : ∀ p, c = .read p → R p) (hs : c = .stopall → ∀ t, b.tone = some t → R t)
    (h : Inv b R s a) (e : call b c s = some s') {q : Nat} (ha : Alone b q) (hqr : c ≠ .read q) :
    isOut b s' q = (isOut b s q || decide (∃ p d, c = .talkto p d ∧ (q = p ∨ q = d))) := by
  have same : ∀ p, p < b.n → ((b.pin q).port = (b.pin p).port ∧ (b.pin q).bit = (b.pin p).bit ↔ q = p) := by
    intro p hp
    constructor
    · intro hh
      by_cases e : q = p
      · exact e
      · exact absurd hh (ha p hp (Ne.symm e)).1
    · rintro rfl; exact ⟨rfl, rfl⟩
  by_cases ht : ∃ p d, c = .talkto p d
  · obtain ⟨p, d, rfl⟩ := ht
    cases e
    show ((setDirOut b d (setDirOut b p s)).ddr _).getLsbD _ = _
    rw [dirOut_bit hb hc.2, dirOut_bit hb hc.1]
    simp only [same p hc.1, same d hc.2]
    unfold isOut
    rw [Bool.or_assoc, ← Bool.decide_or]
    congr 1
    simp only [decide_eq_decide, Call.talkto.injEq]
    constructor
    · intro h; exact ⟨p, d, ⟨rfl, rfl⟩, h⟩
    · rintro ⟨p', d', ⟨rfl, rfl⟩, h⟩; exact h
  · have hno : ¬ ∃ p d, c = .talkto p d ∧ (q = p ∨ q = d) := fun ⟨p, d, h, _⟩ => ht ⟨p, d, h⟩
    rw [decide_eq_false hno, Bool.or_false]
    by_cases hrd : ∃ p, c = .read p
    · obtain ⟨p, rfl⟩ := hrd
      cases e
      have hne : q ≠ p := fun h => hqr (by rw [h])
      show ((clrDir (b.pin p) s).ddr _).getLsbD _ = _
      rw [clrDir_bit (hb.2.1 p hc)]
      simp only [same p hc, hne]
      simp [isOut]
    · obtain ⟨s1, e1, _, e3⟩ := call_inv hb c hc hr hs h
      rw [e] at e1
      cases e1
      unfold isOut
      rw [e3 (fun p d h => ht ⟨p, d, h⟩) (fun p h => hrd ⟨p, h⟩)]

open Classical in
theorem calls_inv {b : Board} {R} (hb : WFB b) (l : List Call) (s : St) (a : Told) (hl : ∀ c ∈ l, Ok b c) (hr : ∀ p, .read p ∈ l → R p)
    (hs : .stopall ∈ l → ∀ t, b.tone = some t → R t) (h : Inv b R s a) :
    ∃ s', calls b l s = some s' ∧ Inv b R s' (l.foldl (told (pwOf b)) a) ∧
      ∀ q, q < b.n → Alone b q → .read q ∉ l → isOut b s' q = (isOut b s q || decide (∃ p d, .talkto p d ∈ l ∧ (q = p ∨ q = d))) := by
  induction l generalizing s a with
  | nil => exact ⟨s, rfl, h, fun q _ _ _ => by simp⟩
  | cons c l ih =>
    have hr1 : ∀ p, c = .read p → R p := fun p e => hr p (e ▸ .head _)
    have hs1 : c = .stopall → ∀ t, b.tone = some t → R t := fun e => hs (e ▸ .head _)
    obtain ⟨s1, e1, h1, _⟩ := call_inv hb c (hl c (.head _)) hr1 hs1 h
    obtain ⟨s', e2, h2, h3⟩ := ih s1 _ (fun c h => hl c (.tail _ h)) (fun p h => hr p (.tail _ h)) (fun h => hs (.tail _ h)) h1
    refine ⟨s', by unfold calls; rw [e1]; exact e2, h2, fun q hq ha hn => ?_⟩
    rw [h3 q hq ha (fun h => hn (.tail _ h)), out_call hb c (hl c (.head _)) hr1 hs1 h e1 ha (fun e => hn (e ▸ .head _)), Bool.or_assoc, ← Bool.decide_or]
    congr 1
    simp only [decide_eq_decide, List.mem_cons]
    constructor
    · rintro (⟨p, d, rfl, h⟩ | ⟨p, d, hm, h⟩)
      · exact ⟨p, d, .inl rfl, h⟩
      · exact ⟨p, d, .inr hm, h⟩
    · rintro ⟨p, d, rfl | hm, h⟩
      · exact .inl ⟨p, d, rfl, h⟩
      · exact .inr ⟨p, d, hm, h⟩

theorem inits_bit (l : List (Tm × BitVec 8)) (f : Tm → BitVec 8) (c : Tm) (j : Nat) (h0 : (f c).getLsbD j = false)
    (h : ∀ x ∈ l, x.1 = c → x.2.getLsbD j = false) : (inits l f c).getLsbD j = false := by
  unfold inits
  induction l generalizing f with
  | nil => exact h0
  | cons x l ih =>
    refine ih _ ?_ (fun y hy => h y (.tail _ hy))
    show (put f x.1 x.2 c).getLsbD j = false
    by_cases e : c = x.1
    · rw [e, put_same]; exact h x (.head _) e.symm
    · rw [put_ne _ _ e]; exact h0

/-- `port_init` connects no pin to a timer. -/
def Loose (b : Board) : Prop := ∀ q < b.n, match (b.pin q).pwm with | some w => ∀ x ∈ b.modes, x.1 = w.2.2.1 → x.2.getLsbD w.2.2.2 = false | none => True

theorem init_inv {b : Board} (R) (hb : WFB b) (hl : Loose b) : Inv b R (init b) (start b.full.toNat) := by
  refine ⟨rfl, rfl, hb.1, hb.1, fun q => flag_zero b q, fun _ _ => rfl, fun _ => rfl, fun _ => Nat.le_refl _, fun q hq _ _ => ⟨0, rfl, ?_⟩⟩
  have hx := hl q hq
  unfold Shows
  cases hw : (b.pin q).pwm with
  | none => simp [init]
  | some w =>
    rw [hw] at hx
    simp only
    rw [if_neg (by rintro ⟨h, _⟩; exact absurd h (by decide))]
    refine ⟨?_, by simp [init]⟩
    exact inits_bit _ _ _ _ (by simp) hx

theorem isOut_init (b : Board) (q : Nat) : isOut b (init b) q = false := by simp [isOut, init]

end Snek.AvrPins
