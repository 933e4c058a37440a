import Verif.Spec.Gpio
/-! # Pins -/
namespace Snek.Gpio
open Spec.Gpio

/-- A bit of a register. -/
def B (s : St) (g : Reg) (k : Nat) : Bool := (s.r g).getLsbD k

theorem one_bit {n : Nat} (k j : Nat) (hk : k < n) : (1#n <<< k).getLsbD j = decide (j = k) := by
  rw [BitVec.getLsbD_shiftLeft, BitVec.getLsbD_one, Bool.eq_iff_iff]
  simp only [Bool.and_eq_true, Bool.not_eq_true', decide_eq_true_eq, decide_eq_false_iff_not]
  omega

theorem or_bit {n : Nat} (v : BitVec n) (k j : Nat) (hk : k < n) : (v ||| 1#n <<< k).getLsbD j = (v.getLsbD j || decide (j = k)) := by
  rw [BitVec.getLsbD_or, one_bit k j hk]

theorem and_bit {n : Nat} (v : BitVec n) (k j : Nat) (hk : k < n) : (v &&& ~~~ (1#n <<< k)).getLsbD j = (v.getLsbD j && !decide (j = k)) := by
  rw [BitVec.getLsbD_and]
  by_cases hj : j < n
  · rw [BitVec.getLsbD_not, one_bit k j hk]; simp [hj]
  · rw [BitVec.getLsbD_of_ge _ _ (by omega)]; simp

theorem B_or (s : St) (g g' : Reg) (k j : Nat) (hk : k < 8) : B (s.set g (s.r g ||| 1#8 <<< k)) g' j = (B s g' j || decide (g' = g ∧ j = k)) := by
  unfold B St.set
  by_cases h : g' = g
  · subst h; simp only [if_true, or_bit _ _ _ hk, true_and]
  · simp [h]

theorem B_and (s : St) (g g' : Reg) (k j : Nat) (hk : k < 8) : B (s.set g (s.r g &&& ~~~ (1#8 <<< k))) g' j = (B s g' j && !decide (g' = g ∧ j = k)) := by
  unfold B St.set
  by_cases h : g' = g
  · subst h; simp only [if_true, and_bit _ _ _ hk, true_and]
  · simp [h]

theorem r_set (s : St) (g g' : Reg) (v : BitVec 8) : (s.set g v).r g' = if g' = g then v else s.r g' := rfl

/-! ## The wiring -/

theorem ddrReg_eq (p : Nat) : ddrReg p = (port p).1 := by unfold ddrReg port; (repeat' split) <;> rfl
theorem portReg_eq (p : Nat) : portReg p = (port p).2.1 := by unfold portReg port; (repeat' split) <;> rfl
theorem bit_eq (p : Nat) : bit p = 1#8 <<< (port p).2.2 := by unfold bit port; (repeat' split) <;> rfl
theorem idx_lt {p : Nat} (h : p < 21) : (port p).2.2 < 8 := by unfold port; (repeat' split) <;> simp <;> omega

theorem port_inj {p q : Nat} (h1 : (port p).2.1 = (port q).2.1) (h2 : (port p).2.2 = (port q).2.2) : p = q := by
  revert h1 h2
  unfold port
  (repeat' split) <;> simp <;> omega

theorem ddr_inj {p q : Nat} (h1 : (port p).1 = (port q).1) (h2 : (port p).2.2 = (port q).2.2) : p = q := by
  revert h1 h2
  unfold port
  (repeat' split) <;> simp <;> omega

/-- Output registers are no direction registers and no registers of timers. -/
theorem port_cases (p : Nat) : ((port p).2.1 = .portd ∨ (port p).2.1 = .portb ∨ (port p).2.1 = .portc) ∧
    ((port p).1 = .ddrd ∨ (port p).1 = .ddrb ∨ (port p).1 = .ddrc) := by
  unfold port; (repeat' split) <;> simp

theorem timer_cases {p : Nat} {t k o} (h : timer p = some (t, k, o)) :
    (p = 3 ∧ t = .tccr2a ∧ k = 5 ∧ o = .ocr2b) ∨ (p = 5 ∧ t = .tccr0a ∧ k = 5 ∧ o = .ocr0b) ∨ (p = 6 ∧ t = .tccr0a ∧ k = 7 ∧ o = .ocr0a) ∨
    (p = 9 ∧ t = .tccr1a ∧ k = 7 ∧ o = .ocr1al) ∨ (p = 10 ∧ t = .tccr1a ∧ k = 5 ∧ o = .ocr1bl) ∨ (p = 11 ∧ t = .tccr2a ∧ k = 7 ∧ o = .ocr2a) := by
  unfold timer at h
  split at h <;> simp_all

theorem pwm_eq {p : Nat} (h : p < 21) (h9 : p ≠ 19) : hasPwm p = (timer p).isSome := by
  have : ∀ p < 21, p ≠ 19 → hasPwm p = (timer p).isSome := by decide
  exact this p h h9

theorem regs_eq {p : Nat} {t k o} (h : timer p = some (t, k, o)) : tccReg p = some t ∧ ocrReg p = some o ∧ tccVal p = 1#8 <<< k ∧ k < 8 := by
  rcases timer_cases h with ⟨rfl, rfl, rfl, rfl⟩ | ⟨rfl, rfl, rfl, rfl⟩ | ⟨rfl, rfl, rfl, rfl⟩ | ⟨rfl, rfl, rfl, rfl⟩ | ⟨rfl, rfl, rfl, rfl⟩ | ⟨rfl, rfl, rfl, rfl⟩ <;> decide

/-- The registers a pin depends on are the same. -/
structure SameAt (s s' : St) (q : Nat) : Prop where
  dir : B s' (port q).1 (port q).2.2 = B s (port q).1 (port q).2.2
  out : B s' (port q).2.1 (port q).2.2 = B s (port q).2.1 (port q).2.2
  tim : ∀ t k o, timer q = some (t, k, o) → B s' t k = B s t k ∧ s'.r o = s.r o

theorem SameAt.refl (s : St) (q : Nat) : SameAt s s q := ⟨rfl, rfl, fun _ _ _ _ => ⟨rfl, rfl⟩⟩

theorem SameAt.trans {s t u : St} {q : Nat} (h : SameAt s t q) (h' : SameAt t u q) : SameAt s u q :=
  ⟨h'.dir.trans h.dir, h'.out.trans h.out, fun a b c e => ⟨(h'.tim a b c e).1.trans (h.tim a b c e).1, (h'.tim a b c e).2.trans (h.tim a b c e).2⟩⟩

/-- The variables other than the registers are the same. -/
structure SameVars (s s' : St) : Prop where
  pp : s'.powerPin = s.powerPin
  dp : s'.dirPin = s.dirPin
  pw : s'.power = s.power
  on : s'.onPins = s.onPins
  pl : s'.pullPins = s.pullPins
  ln : s'.lines = s.lines

theorem SameVars.set (s : St) (g v) : SameVars s (s.set g v) := ⟨rfl, rfl, rfl, rfl, rfl, rfl⟩
theorem SameVars.trans {s t u : St} (h : SameVars s t) (h' : SameVars t u) : SameVars s u :=
  ⟨h'.pp.trans h.pp, h'.dp.trans h.dp, h'.pw.trans h.pw, h'.on.trans h.on, h'.pl.trans h.pl, h'.ln.trans h.ln⟩

/-- Writing a pin's output bit. -/
theorem port_write {p : Nat} (hp : p < 21) (s : St) (b : Bool) :
    let s' := if b then s.set (portReg p) (s.r (portReg p) ||| bit p) else s.set (portReg p) (s.r (portReg p) &&& ~~~ bit p)
    SameVars s s' ∧ B s' (port p).2.1 (port p).2.2 = b ∧ (∀ g j, ¬ (g = (port p).2.1 ∧ j = (port p).2.2) → B s' g j = B s g j) ∧
      ∀ g, g ≠ (port p).2.1 → s'.r g = s.r g := by
  rw [portReg_eq, bit_eq]
  cases b
  · refine ⟨.set _ _ _, ?_, fun g j h => ?_, fun g h => ?_⟩
    · simp only [Bool.false_eq_true, if_false]; rw [B_and _ _ _ _ _ (idx_lt hp)]; simp
    · simp only [Bool.false_eq_true, if_false]; rw [B_and _ _ _ _ _ (idx_lt hp), decide_eq_false h]; simp
    · simp only [Bool.false_eq_true, if_false, r_set, if_neg h]
  · refine ⟨.set _ _ _, ?_, fun g j h => ?_, fun g h => ?_⟩
    · simp only [if_true]; rw [B_or _ _ _ _ _ (idx_lt hp)]; simp
    · simp only [if_true]; rw [B_or _ _ _ _ _ (idx_lt hp), decide_eq_false h]; simp
    · simp only [if_true, r_set, if_neg h]

/-- What the registers of a pin must say for this level. -/
def Good (s : St) (q lv : Nat) : Prop :=
  match timer q with
  | none => B s (port q).2.1 (port q).2.2 = decide (lv ≠ 0)
  | some (t, k, o) => B s t k = decide (0 < lv ∧ lv < 255) ∧ (B s t k = true → (s.r o).toNat = lv) ∧
      (B s t k = false → B s (port q).2.1 (port q).2.2 = decide (lv ≠ 0))

theorem Good.same {s s' : St} {q lv : Nat} (h : Good s q lv) (hs : SameAt s s' q) : Good s' q lv := by
  unfold Good at *
  cases ht : timer q with
  | none => rw [ht] at h; simp only at *; rw [hs.out]; exact h
  | some x =>
    obtain ⟨t, k, o⟩ := x
    rw [ht] at h
    obtain ⟨e1, e2⟩ := hs.tim t k o ht
    simp only at *
    rw [e1, e2, hs.out]
    exact h

/-- The value `set_out` works with. -/
def want (s : St) (p : Nat) : BitVec 8 := if isOn s p then s.power p else 0

theorem setOut_spec {p : Nat} (hp : p < 21) (h9 : p ≠ 19) (s : St) :
    ∃ s', setOut p s = some s' ∧ SameVars s s' ∧ Good s' p (want s p).toNat ∧ (∀ q, q ≠ p → SameAt s s' q) ∧
      B s' (port p).1 (port p).2.2 = B s (port p).1 (port p).2.2 := by
  have hne : ∀ v : BitVec 8, decide (v.toNat ≠ 0) = decide (v ≠ 0) := by decide
  have hlt : ∀ v : BitVec 8, decide (0 < v.toNat ∧ v.toNat < 255) = decide (0 < v ∧ v < 255) := by decide
  have hpd := (port_cases p)
  have hdisj : ∀ {q : Nat} {t k o}, timer q = some (t, k, o) → ∀ x, t ≠ (port x).2.1 ∧ t ≠ (port x).1 ∧ o ≠ (port x).2.1 ∧ o ≠ (port x).1 := by
    intro q t k o h x
    have hx := port_cases x
    rcases timer_cases h with ⟨_, rfl, _, rfl⟩ | ⟨_, rfl, _, rfl⟩ | ⟨_, rfl, _, rfl⟩ | ⟨_, rfl, _, rfl⟩ | ⟨_, rfl, _, rfl⟩ | ⟨_, rfl, _, rfl⟩ <;>
      rcases hx.1 with h | h | h <;> rcases hx.2 with h' | h' | h' <;> rw [h, h'] <;> decide
  have hpp : ∀ x y : Nat, (port x).1 ≠ (port y).2.1 := by
    intro x y
    have hx := port_cases x
    have hy := port_cases y
    rcases hx.2 with h | h | h <;> rcases hy.1 with h' | h' | h' <;> rw [h, h'] <;> decide
  have hto : ∀ {q q' : Nat} {t k o t' k' o'}, timer q = some (t, k, o) → timer q' = some (t', k', o') → t ≠ o' ∧ (q ≠ q' → o ≠ o' ∧ ¬ (t = t' ∧ k = k')) := by
    intro q q' t k o t' k' o' h h'
    rcases timer_cases h with ⟨rfl, rfl, rfl, rfl⟩ | ⟨rfl, rfl, rfl, rfl⟩ | ⟨rfl, rfl, rfl, rfl⟩ | ⟨rfl, rfl, rfl, rfl⟩ | ⟨rfl, rfl, rfl, rfl⟩ | ⟨rfl, rfl, rfl, rfl⟩ <;>
      rcases timer_cases h' with ⟨rfl, rfl, rfl, rfl⟩ | ⟨rfl, rfl, rfl, rfl⟩ | ⟨rfl, rfl, rfl, rfl⟩ | ⟨rfl, rfl, rfl, rfl⟩ | ⟨rfl, rfl, rfl, rfl⟩ | ⟨rfl, rfl, rfl, rfl⟩ <;> decide
  unfold setOut
  simp only []
  rw [pwm_eq hp h9]
  generalize hv : (if isOn s p then s.power p else 0) = v
  have hw : want s p = v := hv
  rw [hw]
  cases ht : timer p with
  | none =>
    simp only [Option.isSome_none, Bool.false_eq_true, if_false]
    obtain ⟨h1, h2, h3, h4⟩ := port_write hp s (decide (v ≠ 0))
    simp only [decide_eq_true_eq] at h1 h2 h3 h4
    refine ⟨_, rfl, h1, ?_, ?_, ?_⟩
    · unfold Good; rw [ht]; simp only; rw [h2, hne]
    · intro q hq
      refine ⟨h3 _ _ fun h => hpp _ _ h.1, h3 _ _ fun h => hq (port_inj h.1 h.2), fun t k o e => ?_⟩
      exact ⟨h3 _ _ fun h => (hdisj e p).1 h.1, h4 _ (hdisj e p).2.2.1⟩
    · exact h3 _ _ fun h => hpp _ _ h.1
  | some x =>
    obtain ⟨t, k, o⟩ := x
    obtain ⟨e1, e2, e3, hk⟩ := regs_eq ht
    obtain ⟨d1, d2, d3, d4⟩ := hdisj ht p
    simp only [Option.isSome_some, if_true, e1, e2, e3, Option.bind_eq_bind, Option.bind_some, Option.pure_def]
    by_cases hc : 0 < v ∧ v < 255
    · rw [if_pos hc]
      have hto1 := (hto ht ht).1
      refine ⟨_, rfl, (SameVars.set _ _ _).trans (.set _ _ _), ?_, ?_, ?_⟩
      · unfold Good
        rw [ht]
        simp only
        rw [hlt, B_or _ _ _ _ _ hk]
        refine ⟨by rw [decide_eq_true hc]; simp, fun _ => ?_, by simp⟩
        rw [r_set, if_neg (Ne.symm hto1), r_set, if_pos rfl]
      · intro q hq
        have other : ∀ g j, ¬ (g = t ∧ j = k) → g ≠ o → B ((s.set o v).set t ((s.set o v).r t ||| 1#8 <<< k)) g j = B s g j := by
          intro g j h h'
          rw [B_or _ _ _ _ _ hk, decide_eq_false h, Bool.or_false]
          unfold B; rw [r_set, if_neg h']
        refine ⟨other _ _ (fun h => (hdisj ht q).2.1 h.1.symm) (hdisj ht q).2.2.2.symm, other _ _ (fun h => (hdisj ht q).1 h.1.symm) (hdisj ht q).2.2.1.symm,
          fun t' k' o' e => ⟨other _ _ (fun h => ((hto e ht).2 hq).2 h) (hto e ht).1, ?_⟩⟩
        rw [r_set, if_neg (Ne.symm (hto ht e).1), r_set, if_neg ((hto e ht).2 hq).1]
      · rw [B_or _ _ _ _ _ hk, decide_eq_false (fun h => d2 h.1.symm), Bool.or_false]
        unfold B; rw [r_set, if_neg d4.symm]
    · rw [if_neg hc]
      obtain ⟨h1, h2, h3, h4⟩ := port_write hp (s.set t (s.r t &&& ~~~(1#8 <<< k))) (decide (v ≠ 0))
      simp only [decide_eq_true_eq] at h1 h2 h3 h4
      have htk : B (s.set t (s.r t &&& ~~~(1#8 <<< k))) t k = false := by rw [B_and _ _ _ _ _ hk]; simp
      have other : ∀ g j, ¬ (g = t ∧ j = k) → B (s.set t (s.r t &&& ~~~(1#8 <<< k))) g j = B s g j := by
        intro g j h
        rw [B_and _ _ _ _ _ hk, decide_eq_false h]; simp
      refine ⟨_, rfl, (SameVars.set _ _ _).trans h1, ?_, ?_, ?_⟩
      · unfold Good
        rw [ht]
        simp only
        rw [h3 t k (fun h => d1 h.1), htk, h2, hlt, hne]
        exact ⟨(decide_eq_false hc).symm, by simp, fun _ => rfl⟩
      · intro q hq
        refine ⟨?_, ?_, fun t' k' o' e => ⟨?_, ?_⟩⟩
        · rw [h3 _ _ (fun h => hpp _ _ h.1), other _ _ (fun h => (hdisj ht q).2.1 h.1.symm)]
        · rw [h3 _ _ (fun h => hq (port_inj h.1 h.2)), other _ _ (fun h => (hdisj ht q).1 h.1.symm)]
        · rw [h3 _ _ (fun h => (hdisj e p).1 h.1), other _ _ (fun h => ((hto e ht).2 hq).2 h)]
        · rw [h4 _ (hdisj e p).2.2.1, r_set, if_neg (Ne.symm (hto ht e).1)]
      · rw [h3 _ _ (fun h => hpp _ _ h.1), other _ _ (fun h => d2 h.1.symm)]

/-! ## Histories -/

theorem isOn_setOn {p : Nat} (hp : p < 21) (s : St) (q : Nat) : isOn (setOn p s) q = upd (isOn s) p true q := by
  unfold isOn setOn upd
  simp only [BitVec.getLsbD_or, BitVec.getLsbD_shiftLeft, BitVec.getLsbD_one]
  split
  · subst q; simp; omega
  · rename_i h
    have : decide (q - p = 0) = false ∨ q < p := by
      by_cases h' : q < p
      · exact .inr h'
      · exact .inl (decide_eq_false (by omega))
    rcases this with h' | h' <;> simp [h']

theorem isOn_setOff {p : Nat} (hp : p < 21) (s : St) (q : Nat) : isOn (setOff p s) q = upd (isOn s) p false q := by
  unfold isOn setOff upd
  simp only [BitVec.getLsbD_and, BitVec.getLsbD_not, BitVec.getLsbD_shiftLeft, BitVec.getLsbD_one]
  split
  · subst q; simp
  · rename_i h
    by_cases h32 : q < 32
    · have : decide (q - p = 0) = false ∨ q < p := by
        by_cases h' : q < p
        · exact .inr h'
        · exact .inl (decide_eq_false (by omega))
      rcases this with h' | h' <;> simp [h', h32]
    · simp [h32, BitVec.getLsbD_of_ge _ _ (Nat.le_of_not_lt h32)]

/-- The level asked for, before it is rounded to on or off. -/
def raw (a : Pins) (q : Nat) : Nat := if a.on q then a.power q else 0

/-- The variables of the program agree with what it was told. -/
structure Core (s : St) (a : Pins) : Prop where
  cur : s.powerPin = a.cur
  dir : s.dirPin = a.dir
  cok : a.cur < 21 ∧ a.cur ≠ 19
  dok : a.dir < 21 ∧ a.dir ≠ 19
  on : ∀ q, isOn s q = a.on q
  far : ∀ q, 21 ≤ q ∨ q = 19 → a.on q = false
  pw : ∀ q, (s.power q).toNat = a.power q

theorem Core.want {s : St} {a : Pins} (h : Core s a) (q : Nat) : (want s q).toNat = raw a q := by
  unfold Gpio.want raw
  rw [h.on]
  split
  · exact h.pw q
  · rfl

theorem Core.vars {s s' : St} {a : Pins} (h : Core s a) (e : SameVars s s') : Core s' a :=
  ⟨e.pp.trans h.cur, e.dp.trans h.dir, h.cok, h.dok, fun q => by rw [← h.on q]; unfold isOn; rw [e.on], h.far, fun q => by rw [e.pw]; exact h.pw q⟩

/-- And the registers of the pins that are not read. -/
structure Inv (R : Nat → Prop) (s : St) (a : Pins) : Prop where
  core : Core s a
  good : ∀ q, q < 21 → q ≠ 19 → ¬ R q → Good s q (raw a q)

theorem sameAt_r {s s' : St} (h : s'.r = s.r) (q : Nat) : SameAt s s' q := by
  constructor <;> simp [B, h]

/-- The pin is an output. -/
def isOut (s : St) (q : Nat) : Bool := B s (port q).1 (port q).2.2

theorem out_inv {R s s1 a1} {p : Nat} (hp : p < 21 ∧ p ≠ 19) (hr : s1.r = s.r) (hc : Core s1 a1)
    (hg : ∀ q, q < 21 → q ≠ 19 → ¬ R q → q ≠ p → Good s q (raw a1 q)) :
    ∃ s', setOut p s1 = some s' ∧ Inv R s' a1 ∧ ∀ q, isOut s' q = isOut s q := by
  obtain ⟨s', h1, h2, h3, h4, h5⟩ := setOut_spec hp.1 hp.2 s1
  rw [hc.want] at h3
  refine ⟨s', h1, ⟨hc.vars h2, fun q a b c => ?_⟩, fun q => ?_⟩
  · by_cases e : q = p
    · subst e; exact h3
    · exact ((hg q a b c e).same (sameAt_r hr q)).same (h4 q e)
  · have : B s (port q).1 (port q).2.2 = B s1 (port q).1 (port q).2.2 := by unfold B; rw [hr]
    unfold isOut
    rw [this]
    by_cases e : q = p
    · subst e; exact h5
    · exact (h4 q e).dir

theorem on_inv {R s a} (p : Nat) (hp : p < 21 ∧ p ≠ 19) (h : Inv R s a) :
    ∃ s', setOut p (setOn p s) = some s' ∧ Inv R s' { a with on := upd a.on p true } ∧ ∀ q, isOut s' q = isOut s q := by
  refine out_inv hp rfl ⟨h.core.cur, h.core.dir, h.core.cok, h.core.dok, fun q => ?_, fun q hq => ?_, h.core.pw⟩ fun q h1 h2 h3 h4 => ?_
  · rw [isOn_setOn hp.1]
    show upd (isOn s) p true q = upd a.on p true q
    rw [show isOn s = a.on from funext h.core.on]
  · show upd a.on p true q = false
    unfold upd; rw [if_neg (by omega)]; exact h.core.far q hq
  · have := h.good q h1 h2 h3
    unfold raw at *
    simp only [upd, if_neg h4]
    exact this

theorem off_inv {R s a} (p : Nat) (hp : p < 21 ∧ p ≠ 19) (h : Inv R s a) :
    ∃ s', setOut p (setOff p s) = some s' ∧ Inv R s' { a with on := upd a.on p false } ∧ ∀ q, isOut s' q = isOut s q := by
  refine out_inv hp rfl ⟨h.core.cur, h.core.dir, h.core.cok, h.core.dok, fun q => ?_, fun q hq => ?_, h.core.pw⟩ fun q h1 h2 h3 h4 => ?_
  · rw [isOn_setOff hp.1]
    show upd (isOn s) p false q = upd a.on p false q
    rw [show isOn s = a.on from funext h.core.on]
  · show upd a.on p false q = false
    unfold upd; rw [if_neg (by omega)]; exact h.core.far q hq
  · have := h.good q h1 h2 h3
    unfold raw at *
    simp only [upd, if_neg h4]
    exact this

theorem stop_inv {R} (n : Nat) : ∀ (p : Nat) (s : St) (a : Pins), p + n = 21 → Inv R s a → (∀ q, q < p → a.on q = false) →
    ∃ s', stopFrom n p s = some s' ∧ Inv R s' { a with on := fun _ => false } ∧ ∀ q, isOut s' q = isOut s q := by
  induction n with
  | zero =>
    intro p s a hn h hq
    have : a.on = fun _ => false := by
      funext q
      by_cases h' : q < p
      · exact hq q h'
      · exact h.core.far q (.inl (by omega))
    refine ⟨s, rfl, ?_, fun _ => rfl⟩
    rw [← this]; exact h
  | succ n ih =>
    intro p s a hn h hq
    unfold stopFrom
    cases hon : isOn s p with
    | false =>
      simp only [Bool.false_eq_true, if_false, Option.bind_eq_bind, Option.bind_some]
      refine ih (p + 1) s a (by omega) h fun q hq' => ?_
      by_cases e : q = p
      · subst e; rw [← h.core.on]; exact hon
      · exact hq q (by omega)
    | true =>
      have h9 : p ≠ 19 := fun e => by
        have := h.core.far p (.inr e)
        rw [← h.core.on, hon] at this
        simp at this
      obtain ⟨s1, h1, h2, h3⟩ := off_inv p ⟨by omega, h9⟩ h
      simp only [if_true, h1, Option.bind_eq_bind, Option.bind_some]
      obtain ⟨s2, h4, h5, h6⟩ := ih (p + 1) s1 { a with on := upd a.on p false } (by omega) h2 fun q hq' => by
        show upd a.on p false q = false
        unfold upd; split
        · rfl
        · exact hq q (by omega)
      exact ⟨s2, h4, h5, fun q => (h6 q).trans (h3 q)⟩

/-- A call with pins there are; pin 19 is not talked to. -/
def Ok : Call → Prop
  | .talkto p d => (p < 21 ∧ p ≠ 19) ∧ (d < 21 ∧ d ≠ 19)
  | .read p => p < 21
  | .setpower v => ∃ b, powerByte v = some b
  | _ => True

theorem dirOut_spec {p : Nat} (hp : p < 21) (s : St) :
    SameVars s (setDirOut p s) ∧ (∀ q, isOut (setDirOut p s) q = (isOut s q || decide (q = p))) ∧
      (∀ q lv, Good s q lv → Good (setDirOut p s) q lv) := by
  have hpp : ∀ x y : Nat, (port x).1 ≠ (port y).2.1 := by
    intro x y
    have hx := port_cases x
    have hy := port_cases y
    rcases hx.2 with h | h | h <;> rcases hy.1 with h' | h' | h' <;> rw [h, h'] <;> decide
  unfold setDirOut
  rw [ddrReg_eq, bit_eq]
  refine ⟨.set _ _ _, fun q => ?_, fun q lv h => ?_⟩
  · unfold isOut
    rw [B_or _ _ _ _ _ (idx_lt hp)]
    congr 1
    by_cases e : q = p
    · subst e; simp
    · rw [decide_eq_false e, decide_eq_false fun h => e (ddr_inj h.1 h.2)]
  · have other : ∀ g j, g ≠ (port p).1 → B (s.set (port p).1 (s.r (port p).1 ||| 1#8 <<< (port p).2.2)) g j = B s g j := by
      intro g j hg
      unfold B; rw [r_set, if_neg hg]
    unfold Good at *
    cases ht : timer q with
    | none => rw [ht] at h; simp only at *; rw [other _ _ (hpp _ _).symm]; exact h
    | some x =>
      obtain ⟨t, k, o⟩ := x
      rw [ht] at h
      have hx := (port_cases p).2
      have : t ≠ (port p).1 ∧ o ≠ (port p).1 := by
        rcases timer_cases ht with ⟨_, rfl, _, rfl⟩ | ⟨_, rfl, _, rfl⟩ | ⟨_, rfl, _, rfl⟩ | ⟨_, rfl, _, rfl⟩ | ⟨_, rfl, _, rfl⟩ | ⟨_, rfl, _, rfl⟩ <;>
          rcases hx with h' | h' | h' <;> rw [h'] <;> decide
      simp only at *
      rw [other _ _ this.1, r_set, if_neg this.2, other _ _ (hpp _ _).symm]
      exact h

theorem dirIn_spec {p : Nat} (hp : p < 21) (s : St) :
    SameVars s (setDirIn p s) ∧ isOut (setDirIn p s) p = false ∧ ∀ q, q ≠ p → SameAt s (setDirIn p s) q := by
  have hpp : ∀ x y : Nat, (port x).1 ≠ (port y).2.1 := by
    intro x y
    have hx := port_cases x
    have hy := port_cases y
    rcases hx.2 with h | h | h <;> rcases hy.1 with h' | h' | h' <;> rw [h, h'] <;> decide
  unfold setDirIn
  simp only []
  rw [ddrReg_eq, bit_eq]
  generalize hs1 : s.set (port p).1 (s.r (port p).1 &&& ~~~(1#8 <<< (port p).2.2)) = s1
  obtain ⟨h1, h2, h3, h4⟩ := port_write hp s1 (isPull s1 p)
  rw [bit_eq] at h1 h2 h3 h4
  have hv : SameVars s s1 := hs1 ▸ .set _ _ _
  have hB : ∀ g j, B s1 g j = (B s g j && !decide (g = (port p).1 ∧ j = (port p).2.2)) := fun g j => by
    rw [← hs1, B_and _ _ _ _ _ (idx_lt hp)]
  refine ⟨hv.trans h1, ?_, fun q hq => ⟨?_, ?_, fun t k o e => ?_⟩⟩
  · unfold isOut
    rw [h3 _ _ (fun h => hpp _ _ h.1), hB]; simp
  · rw [h3 _ _ (fun h => hpp _ _ h.1), hB, decide_eq_false fun h => hq (ddr_inj h.1 h.2)]; simp
  · rw [h3 _ _ (fun h => hq (port_inj h.1 h.2)), hB, decide_eq_false fun h => hpp _ _ h.1.symm]; simp
  · have hx := port_cases p
    have : t ≠ (port p).1 ∧ o ≠ (port p).1 ∧ t ≠ (port p).2.1 ∧ o ≠ (port p).2.1 := by
      rcases timer_cases e with ⟨_, rfl, _, rfl⟩ | ⟨_, rfl, _, rfl⟩ | ⟨_, rfl, _, rfl⟩ | ⟨_, rfl, _, rfl⟩ | ⟨_, rfl, _, rfl⟩ | ⟨_, rfl, _, rfl⟩ <;>
        rcases hx.1 with h | h | h <;> rcases hx.2 with h' | h' | h' <;> rw [h, h'] <;> decide
    refine ⟨?_, ?_⟩
    · rw [h3 _ _ (fun h => this.2.2.1 h.1), hB, decide_eq_false fun h => this.1 h.1]; simp
    · rw [h4 _ this.2.2.2, ← hs1, r_set, if_neg this.2.1]

/-- One call. -/
theorem call_inv {R s a} (c : Call) (hk : Ok c) (hR : ∀ p, c = .read p → R p) (h : Inv R s a) :
    ∃ s', call c s = some s' ∧ Inv R s' (told a c) ∧ (∀ q, ¬ R q → isOut s q = true → isOut s' q = true) ∧
      (∀ p d, c = .talkto p d → isOut s' p = true ∧ isOut s' d = true) := by
  cases c with
  | talkto p d =>
    obtain ⟨a1, a2, a3⟩ := dirOut_spec hk.1.1 s
    obtain ⟨b1, b2, b3⟩ := dirOut_spec hk.2.1 (setDirOut p s)
    have e := a1.trans b1
    refine ⟨_, rfl, ⟨⟨rfl, rfl, hk.1, hk.2, fun q => (h.core.vars e).on q, h.core.far, (h.core.vars e).pw⟩, fun q x y z => ?_⟩, fun q _ hq => ?_, fun p' d' e => ?_⟩
    · exact (b3 q _ (a3 q _ (h.good q x y z))).same (sameAt_r (by rfl) q)
    · have : isOut (setDirOut d (setDirOut p s)) q = true := by rw [b2, a2, hq]; rfl
      exact this
    · cases e
      have h1 : isOut (setDirOut d (setDirOut p s)) p = true := by rw [b2, a2]; simp
      have h2 : isOut (setDirOut d (setDirOut p s)) d = true := by rw [b2]; simp
      exact ⟨h1, h2⟩
  | setpower v =>
    obtain ⟨b, hb⟩ := hk
    simp only [call, hb, Option.bind_eq_bind, Option.bind_some, told]
    have : ∃ s', setOut s.powerPin { s with power := fun q => if q = s.powerPin then b else s.power q, lines := s.lines + 1 } = some s' ∧
        Inv R s' { a with power := upd a.power a.cur b.toNat } ∧ ∀ q, isOut s' q = isOut s q := by
      refine out_inv (h.core.cur ▸ h.core.cok) rfl ⟨h.core.cur, h.core.dir, h.core.cok, h.core.dok, fun q => h.core.on q, h.core.far, fun q => ?_⟩ fun q h1 h2 h3 h4 => ?_
      · simp only [upd, h.core.cur]
        split
        · rfl
        · exact h.core.pw q
      · have := h.good q h1 h2 h3
        rw [h.core.cur] at h4
        unfold raw at *
        simp only [upd, if_neg h4]
        exact this
    obtain ⟨s', e1, e2, e3⟩ := this
    exact ⟨s', e1, e2, fun q _ hq => (e3 q).trans hq, fun _ _ e => by cases e⟩
  | setleft =>
    obtain ⟨s', e1, e2, e3⟩ := on_inv s.dirPin (h.core.dir ▸ h.core.dok) h
    rw [h.core.dir] at e2
    exact ⟨s', e1, e2, fun q _ hq => (e3 q).trans hq, fun _ _ e => by cases e⟩
  | setright =>
    obtain ⟨s', e1, e2, e3⟩ := off_inv s.dirPin (h.core.dir ▸ h.core.dok) h
    rw [h.core.dir] at e2
    exact ⟨s', e1, e2, fun q _ hq => (e3 q).trans hq, fun _ _ e => by cases e⟩
  | on =>
    obtain ⟨s', e1, e2, e3⟩ := on_inv s.powerPin (h.core.cur ▸ h.core.cok) h
    rw [h.core.cur] at e2
    exact ⟨s', e1, e2, fun q _ hq => (e3 q).trans hq, fun _ _ e => by cases e⟩
  | off =>
    obtain ⟨s', e1, e2, e3⟩ := off_inv s.powerPin (h.core.cur ▸ h.core.cok) h
    rw [h.core.cur] at e2
    exact ⟨s', e1, e2, fun q _ hq => (e3 q).trans hq, fun _ _ e => by cases e⟩
  | pullnone p =>
    exact ⟨_, rfl, ⟨⟨h.core.cur, h.core.dir, h.core.cok, h.core.dok, fun q => h.core.on q, h.core.far, h.core.pw⟩,
      fun q x y z => (h.good q x y z).same (sameAt_r (by rfl) q)⟩, fun q _ hq => hq, fun _ _ e => by cases e⟩
  | pullup p =>
    exact ⟨_, rfl, ⟨⟨h.core.cur, h.core.dir, h.core.cok, h.core.dok, fun q => h.core.on q, h.core.far, h.core.pw⟩,
      fun q x y z => (h.good q x y z).same (sameAt_r (by rfl) q)⟩, fun q _ hq => hq, fun _ _ e => by cases e⟩
  | read p =>
    obtain ⟨a1, a2, a3⟩ := dirIn_spec (show p < 21 from hk) s
    have hRp := hR p rfl
    refine ⟨_, rfl, ⟨h.core.vars a1, fun q x y z => (h.good q x y z).same (a3 q fun e => z (e ▸ hRp))⟩, fun q z hq => ?_, fun _ _ e => by cases e⟩
    exact ((a3 q fun e => z (e ▸ hRp)).dir).trans hq
  | stopall =>
    obtain ⟨s', e1, e2, e3⟩ := stop_inv numPin 0 s a rfl h (fun q h => absurd h (Nat.not_lt_zero q))
    exact ⟨s', e1, e2, fun q _ hq => (e3 q).trans hq, fun _ _ e => by cases e⟩

theorem calls_inv {R} (l : List Call) : ∀ (s : St) (a : Pins), (∀ c ∈ l, Ok c) → (∀ p, .read p ∈ l → R p) → Inv R s a →
    ∃ s', calls l s = some s' ∧ Inv R s' (l.foldl told a) ∧ (∀ q, ¬ R q → isOut s q = true → isOut s' q = true) ∧
      (∀ p d q, .talkto p d ∈ l → q = p ∨ q = d → ¬ R q → isOut s' q = true) := by
  induction l with
  | nil => intro s a _ _ h; exact ⟨s, rfl, h, fun _ _ h => h, fun p d q hm => by simp at hm⟩
  | cons c l ih =>
    intro s a hk hr h
    obtain ⟨s1, a1, a2, a3, a4⟩ := call_inv c (hk c (.head _)) (fun p e => hr p (e ▸ .head _)) h
    obtain ⟨s2, b1, b2, b3, b4⟩ := ih s1 _ (fun c h => hk c (.tail _ h)) (fun p h => hr p (.tail _ h)) a2
    refine ⟨s2, ?_, b2, fun q z hq => b3 q z (a3 q z hq), fun p d q hm hq z => ?_⟩
    · unfold calls; rw [a1]; exact b1
    · cases hm with
      | tail _ hm => exact b4 p d q hm hq z
      | head =>
        have := a4 p d rfl
        rcases hq with rfl | rfl
        · exact b3 _ z this.1
        · exact b3 _ z this.2

theorem init_inv (R : Nat → Prop) : Inv R init start := by
  refine ⟨⟨rfl, rfl, by decide, by decide, fun q => ?_, fun _ _ => rfl, fun _ => rfl⟩, fun q hq h9 _ => ?_⟩
  · simp [isOn, init, start]
  · have : raw start q = 0 := rfl
    rw [this]
    unfold Good
    have hd : ∀ q < 21, (match timer q with
      | none => B init (port q).2.1 (port q).2.2 = decide ((0 : Nat) ≠ 0)
      | some (t, k, o) => B init t k = decide (0 < (0 : Nat) ∧ (0 : Nat) < 255) ∧ (B init t k = true → (init.r o).toNat = 0) ∧
          (B init t k = false → B init (port q).2.1 (port q).2.2 = decide ((0 : Nat) ≠ 0))) := by
      intro q hq
      have : q = 0 ∨ q = 1 ∨ q = 2 ∨ q = 3 ∨ q = 4 ∨ q = 5 ∨ q = 6 ∨ q = 7 ∨ q = 8 ∨ q = 9 ∨ q = 10 ∨ q = 11 ∨ q = 12 ∨ q = 13 ∨ q = 14 ∨ q = 15 ∨
        q = 16 ∨ q = 17 ∨ q = 18 ∨ q = 19 ∨ q = 20 := by omega
      rcases this with rfl | rfl | rfl | rfl | rfl | rfl | rfl | rfl | rfl | rfl | rfl | rfl | rfl | rfl | rfl | rfl | rfl | rfl | rfl | rfl | rfl <;>
        simp only [timer] <;> decide
    exact hd q hq

/-- What an output drives. -/
theorem drives_of {R s a} (h : Inv R s a) {q : Nat} (hq : q < 21) (h9 : q ≠ 19) (hR : ¬ R q) (ho : isOut s q = true) :
    drives s.r q = some (level a q) := by
  have hg := h.good q hq h9 hR
  have hle : a.power q ≤ 255 := by rw [← h.core.pw]; omega
  unfold drives
  rw [if_pos (by exact ho)]
  unfold Good at hg
  have hlv : ∀ b : Bool, b = decide (raw a q ≠ 0) → (raw a q = 0 ∨ raw a q = 255 ∨ timer q = none) →
      (if b = true then 255 else 0) = level a q := by
    intro b hb hc
    subst hb
    unfold raw at hc ⊢
    unfold level
    revert hc
    cases a.on q <;> intro hc
    · simp
    · cases ht : timer q with
      | none => simp
      | some x =>
        rw [ht] at hc
        simp only [if_true, Option.isSome_some] at hc ⊢
        rcases hc with h | h | h
        · rw [h]; simp
        · rw [h]; simp
        · simp at h
  cases ht : timer q with
  | none => rw [ht] at hg; simp only at hg ⊢; exact congrArg some (hlv _ hg (.inr (.inr ht)))
  | some x =>
    obtain ⟨t, k, o⟩ := x
    rw [ht] at hg
    simp only at hg ⊢
    cases hb : B s t k with
    | true =>
      rw [if_pos (by exact hb), hg.2.1 hb]
      unfold raw level
      rw [ht]; simp
    | false =>
      rw [if_neg (by show ¬ (B s t k = true); rw [hb]; simp)]
      have h1 := hg.1
      rw [hb] at h1
      have h2 := of_decide_eq_false h1.symm
      have hr : raw a q ≤ 255 := by unfold raw; split <;> omega
      exact congrArg some (hlv _ (hg.2.2 hb) (by omega))

end Snek.Gpio
