import Verif.Spec.Pins
/-! # Pins of the SAMD21 boards -/
namespace Snek.Pins
open Spec.Pins

theorem upd_same {α β : Type} [DecidableEq α] (f : α → β) (q : α) (v : β) : upd f q v q = v := if_pos rfl
theorem upd_ne {α β : Type} [DecidableEq α] (f : α → β) {p q : α} (v : β) (h : p ≠ q) : upd f q v p = f p := if_neg h

/-! ## The multiplexer -/

theorem nib_same : ∀ k < 2, ∀ c ∈ [1#8, 4#8, 5#8], ∀ v : BitVec 8,
    ((((v &&& ~~~ (0xf#8 <<< (k * 4))) ||| (c <<< (k * 4))) >>> (4 * k)) &&& 0xf) = c := by decide +kernel

theorem nib_other : ∀ k < 2, ∀ c ∈ [1#8, 4#8, 5#8], ∀ v : BitVec 8,
    ((((v &&& ~~~ (0xf#8 <<< (k * 4))) ||| (c <<< (k * 4))) >>> (4 * (1 - k))) &&& 0xf) = ((v >>> (4 * (1 - k))) &&& 0xf) := by decide +kernel

/-- A function code that is used. -/
def Code (c : BitVec 8) : Prop := c ∈ [1#8, 4#8, 5#8]

theorem code_func (fn : Func) : Code fn.code := by cases fn <;> simp [Code, Func.code]
theorem code_one : Code 1 := by simp [Code]

theorem muxOf_same (h : Hw) (g : Gp) {c : BitVec 8} (hc : Code c) : muxOf (muxSet h g c) g = c := by
  have := nib_same (g.bit % 2) (by omega) c hc (h.mux g.port (g.bit / 2))
  unfold muxOf muxSet cfgSet
  simpa using this

theorem muxOf_ne (h : Hw) {g g' : Gp} {c : BitVec 8} (hc : Code c) (hg : g' ≠ g) : muxOf (muxSet h g c) g' = muxOf h g' := by
  unfold muxOf muxSet cfgSet
  simp only []
  by_cases e : g'.port = g.port ∧ g'.bit / 2 = g.bit / 2
  · rw [if_pos e, e.1, e.2]
    have hb : g'.bit ≠ g.bit := by
      intro hb
      apply hg
      cases g; cases g'; simp_all
    have hk : g'.bit % 2 = 1 - g.bit % 2 := by omega
    rw [hk]
    exact nib_other (g.bit % 2) (by omega) c hc _
  · rw [if_neg e]

/-! ## What an operation on one pin leaves alone -/

/-- Only things of pin `x` differ. -/
structure Fr (x : Pin) (h h' : Hw) : Prop where
  dir : ∀ g, g ≠ x.gpio → h'.dir g = h.dir g
  out : ∀ g, g ≠ x.gpio → h'.out g = h.out g
  cfg : ∀ g, g ≠ x.gpio → h'.cfg g = h.cfg g
  mux : ∀ g, g ≠ x.gpio → muxOf h' g = muxOf h g
  cc : ∀ t c, ¬ (x.timer = some t ∧ c = x.chan) → h'.cc t c = h.cc t c
  dac : x.hasDac = false → h'.dac = h.dac

theorem Fr.refl (x : Pin) (h : Hw) : Fr x h h := ⟨fun _ _ => rfl, fun _ _ => rfl, fun _ _ => rfl, fun _ _ => rfl, fun _ _ _ => rfl, fun _ => rfl⟩

theorem Fr.trans {x : Pin} {h h' h'' : Hw} (a : Fr x h h') (b : Fr x h' h'') : Fr x h h'' :=
  ⟨fun g e => (b.dir g e).trans (a.dir g e), fun g e => (b.out g e).trans (a.out g e), fun g e => (b.cfg g e).trans (a.cfg g e),
   fun g e => (b.mux g e).trans (a.mux g e), fun t c e => (b.cc t c e).trans (a.cc t c e), fun e => (b.dac e).trans (a.dac e)⟩

theorem fr_gpio (x : Pin) (h : Hw) (v : Bool) : Fr x h (gpioSet h x.gpio v) :=
  ⟨fun _ _ => rfl, fun _ e => upd_ne _ _ e, fun _ _ => rfl, fun _ _ => rfl, fun _ _ _ => rfl, fun _ => rfl⟩

theorem fr_dir (x : Pin) (h : Hw) (v : Bool) : Fr x h (dirSet h x.gpio v) :=
  ⟨fun _ e => upd_ne _ _ e, fun _ _ => rfl, fun _ _ => rfl, fun _ _ => rfl, fun _ _ _ => rfl, fun _ => rfl⟩

theorem fr_cfg (x : Pin) (h : Hw) (m v : BitVec 8) : Fr x h (cfgSet h x.gpio m v) :=
  ⟨fun _ _ => rfl, fun _ _ => rfl, fun _ e => upd_ne _ _ e, fun _ _ => rfl, fun _ _ _ => rfl, fun _ => rfl⟩

theorem fr_mux (x : Pin) (h : Hw) {c : BitVec 8} (hc : Code c) : Fr x h (muxSet h x.gpio c) :=
  ⟨fun _ _ => rfl, fun _ _ => rfl, fun _ e => upd_ne _ _ e, fun _ e => muxOf_ne h hc e, fun _ _ _ => rfl, fun _ => rfl⟩

theorem fr_cc (x : Pin) (h : Hw) {t : Timer} (ht : x.timer = some t) (v : Nat) : Fr x h (ccSet h t x.chan v) := by
  refine ⟨fun _ _ => rfl, fun _ _ => rfl, fun _ _ => rfl, fun _ _ => rfl, fun t' c e => ?_, fun _ => rfl⟩
  show (if t' = t ∧ c = x.chan then v else h.cc t' c) = _
  rw [if_neg]
  rintro ⟨rfl, e2⟩
  exact e ⟨ht, e2⟩

theorem fr_dac (x : Pin) (h : Hw) (hx : x.hasDac = true) (v : Nat) : Fr x h { h with dac := v } :=
  ⟨fun _ _ => rfl, fun _ _ => rfl, fun _ _ => rfl, fun _ _ => rfl, fun _ _ _ => rfl, fun e => by rw [hx] at e; cases e⟩

theorem fr_clr (x : Pin) (h : Hw) : Fr x h (clrPmux x h) := fr_cfg ..

theorem fr_setDac (x : Pin) (h : Hw) (hx : x.hasDac = true) (v : Nat) : Fr x h (setDac x v h) :=
  ((fr_dac x h hx v).trans (fr_mux x _ code_one)).trans (fr_cfg ..)

theorem fr_setPwm (x : Pin) (h : Hw) {t : Timer} (ht : x.timer = some t) (v : Nat) : Fr x h (setPwm x t v h) :=
  ((fr_cc x h ht v).trans (fr_mux x _ (code_func _))).trans (fr_cfg ..)

theorem fr_rawOut (x : Pin) (v : Nat) (h : Hw) : Fr x h (rawOut x v h) := by
  unfold rawOut
  split
  · exact fr_setDac x h (by assumption) v
  · split
    · split
      · exact fr_setPwm x h (by assumption) _
      · exact (fr_clr x h).trans (fr_gpio ..)
    · exact fr_gpio ..

theorem fr_setIn (x : Pin) (h : Hw) : Fr x h (setIn x h) := by
  unfold setIn
  split
  · exact fr_clr ..
  · split
    · exact (fr_dac x h (by assumption) 0).trans (fr_clr ..)
    · exact Fr.refl ..

theorem fr_setAdc (x : Pin) (h : Hw) : Fr x h (setAdc x h) := (fr_mux x h code_one).trans (fr_cfg ..)

theorem fr_enableOutput (x : Pin) (v : Bool) (h : Hw) : Fr x h (enableOutput x v h) := ((fr_gpio x h v).trans (fr_dir ..)).trans (fr_cfg ..)

theorem fr_enableInput (x : Pin) (m : Pull) (h : Hw) : Fr x h (enableInput x m h) := by
  unfold enableInput
  cases m
  · exact (fr_dir x h false).trans (fr_cfg ..)
  · exact ((fr_dir x h false).trans (fr_gpio ..)).trans (fr_cfg ..)
  · exact ((fr_dir x h false).trans (fr_gpio ..)).trans (fr_cfg ..)

theorem fr_initPin (x : Pin) (h : Hw) : Fr x h (initPin x h) := (fr_clr x h).trans (fr_enableInput ..)

theorem fr_enableOut (b : Board) (p : Nat) (s : St) : Fr (b.pin p) s.hw (enableOut b p s).hw := by
  unfold enableOut
  simp only []
  split
  · exact (fr_clr ..).trans (fr_enableOutput ..)
  · exact fr_enableOutput ..

theorem fr_setDirIn (b : Board) (p : Nat) (s : St) : Fr (b.pin p) s.hw (setDirIn b p s).hw := by
  unfold setDirIn
  simp only []
  split
  · split
    · exact ((fr_setIn ..).trans (fr_setAdc ..)).trans (fr_enableInput ..)
    · exact ((fr_setIn ..).trans (fr_clr ..)).trans (fr_enableInput ..)
  · exact (fr_setIn ..).trans (fr_enableInput ..)

/-! ## What is shown -/

/-- The registers make pin `x` show `v`, if it is an output. -/
def Shown (x : Pin) (h : Hw) (v : Nat) : Prop :=
  if x.hasDac then muxed h x.gpio = true ∧ muxOf h x.gpio = 1 ∧ h.dac = v
  else match x.timer with
    | some t =>
      if 0 < v ∧ v < pwmMax then muxed h x.gpio = true ∧ muxOf h x.gpio = x.func.code ∧ h.cc t x.chan = (if x.invert then pwmMax - v else v)
      else muxed h x.gpio = false ∧ h.out x.gpio = ((v != 0) != x.invert)
    | none => muxed h x.gpio = false ∧ h.out x.gpio = ((v != 0) != x.invert)

/-- Nothing shown by another pin changes. -/
theorem shown_fr {b : Board} {q : Nat} (ha : Alone b q) {p : Nat} (hp : p < b.num) (hpq : p ≠ q) {h h' : Hw} (f : Fr (b.pin p) h h') :
    (∀ v, Shown (b.pin q) h v → Shown (b.pin q) h' v) ∧ h'.dir (b.pin q).gpio = h.dir (b.pin q).gpio ∧
    muxed h' (b.pin q).gpio = muxed h (b.pin q).gpio := by
  have hg : (b.pin q).gpio ≠ (b.pin p).gpio := (ha.gpio p hp hpq).symm
  have e1 := f.dir _ hg
  have e2 := f.out _ hg
  have e3 := f.cfg _ hg
  have e4 := f.mux _ hg
  have em : muxed h' (b.pin q).gpio = muxed h (b.pin q).gpio := by unfold muxed; rw [e3]
  refine ⟨fun v hv => ?_, e1, em⟩
  unfold Shown at *
  rw [em, e4, e2]
  split
  · rename_i hd
    rw [if_pos hd] at hv
    have : (b.pin p).hasDac = false := by
      unfold Pin.hasDac at *
      simp only [decide_eq_true_eq, decide_eq_false_iff_not] at *
      rw [← hd]
      exact hg.symm
    rw [f.dac this]
    exact hv
  · rename_i hd
    rw [if_neg hd] at hv
    cases ht : (b.pin q).timer with
    | none => rw [ht] at hv; exact hv
    | some t =>
      rw [ht] at hv
      have hcc : h'.cc t (b.pin q).chan = h.cc t (b.pin q).chan := by
        apply f.cc
        rintro ⟨h1, h2⟩
        exact (ha.timer t ht).2.2 p hp hpq h1 h2.symm
      simp only [hcc]
      exact hv

theorem muxed_cfgSet (h : Hw) (g : Gp) (m v : BitVec 8) : muxed (cfgSet h g m v) g = ((muxed h g && !m.getLsbD 0) || v.getLsbD 0) := by
  unfold muxed cfgSet
  simp only [upd_same, BitVec.getLsbD_or, BitVec.getLsbD_and, BitVec.getLsbD_not]
  simp

theorem muxed_muxSet (h : Hw) (g : Gp) (c : BitVec 8) : muxed (muxSet h g c) g = true := by
  unfold muxSet; rw [muxed_cfgSet]; simp

theorem muxed_clr (x : Pin) (h : Hw) : muxed (clrPmux x h) x.gpio = false := by
  unfold clrPmux; rw [muxed_cfgSet]; simp

theorem muxed_plain (h : Hw) (g : Gp) : muxed (cfgSet h g plain 0) g = muxed h g := by
  rw [muxed_cfgSet]; simp [plain]

theorem rawOut_shown (x : Pin) (v : Nat) (h : Hw) (hc : x.hasDac = false → x.timer = none → muxed h x.gpio = false) : Shown x (rawOut x v h) v := by
  unfold Shown rawOut
  split
  · refine ⟨?_, ?_, rfl⟩
    · unfold setDac; rw [muxed_plain, muxed_muxSet]
    · exact muxOf_same _ _ code_one
  · rename_i hd
    cases ht : x.timer with
    | none =>
      refine ⟨hc (by simpa using hd) ht, ?_⟩
      exact upd_same ..
    | some t =>
      simp only []
      split
      · refine ⟨?_, ?_, ?_⟩
        · unfold portSetPwm setPwm; rw [muxed_plain, muxed_muxSet]
        · exact muxOf_same _ _ (code_func _)
        · show (if t = t ∧ x.chan = x.chan then _ else _) = _
          rw [if_pos ⟨rfl, rfl⟩]
      · exact ⟨muxed_clr x h, upd_same ..⟩

theorem rawOut_dir (x : Pin) (v : Nat) (h : Hw) : (rawOut x v h).dir = h.dir := by
  unfold rawOut
  split
  · rfl
  · split
    · split <;> rfl
    · rfl

theorem rawOut_clean (x : Pin) (v : Nat) (h : Hw) (hd : x.hasDac = false) (ht : x.timer = none) : muxed (rawOut x v h) x.gpio = muxed h x.gpio := by
  unfold rawOut
  rw [hd, ht]
  rfl

theorem shown_drives {b : Board} {q : Nat} (ha : Alone b q) {h : Hw} {v : Nat} (hv : v ≤ 65535) (hd : h.dir (b.pin q).gpio = true)
    (hs : Shown (b.pin q) h v) :
    gets b h q = some (if (b.pin q).timer.isSome ∨ (b.pin q).gpio = ⟨.a, 2⟩ then v else if v = 0 then 0 else 65535) := by
  have hlev : ∀ (w : Nat), (w = 0 ∨ w = 65535 ∨ (b.pin q).timer = none) → muxed h (b.pin q).gpio = false → h.out (b.pin q).gpio = ((w != 0) != (b.pin q).invert) →
      gets b h q = some (if w = 0 then 0 else 65535) := by
    intro w _ h1 h2
    unfold gets drives
    rw [h1, hd, h2]
    by_cases hw : w = 0 <;> cases (b.pin q).invert <;> simp [hw]
  unfold Shown at hs
  by_cases hdac : (b.pin q).hasDac = true
  · rw [if_pos hdac] at hs
    have hg : (b.pin q).gpio = ⟨.a, 2⟩ := by simpa [Pin.hasDac] using hdac
    have hinv := ha.dac hg
    rw [if_pos (Or.inr hg)]
    unfold gets drives
    rw [hs.1, hs.2.1, hinv]
    rw [hg]
    simp [hs.2.2]
  · rw [if_neg hdac] at hs
    have hg : (b.pin q).gpio ≠ ⟨.a, 2⟩ := by simpa [Pin.hasDac] using hdac
    cases ht : (b.pin q).timer with
    | none =>
      rw [ht] at hs
      rw [if_neg (by simp [hg])]
      exact hlev v (Or.inr (Or.inr ht)) hs.1 hs.2
    | some t =>
      rw [ht] at hs
      simp only [] at hs
      rw [if_pos (show (some t).isSome = true ∨ _ from Or.inl rfl)]
      split at hs
      · rename_i hr
        obtain ⟨h1, h2, h3⟩ := hs
        obtain ⟨_, hsrc, _⟩ := ha.timer t ht
        unfold gets drives
        rw [h1, h2]
        have hr2 : v < 65535 := hr.2
        cases hf : (b.pin q).func with
        | e =>
          rw [hf] at hsrc
          simp only [Func.code, if_true, hsrc, Option.map_some, h3]
          cases (b.pin q).invert <;> simp [pwmMax]
          omega
        | f =>
          rw [hf] at hsrc
          simp only [Func.code, if_true, hsrc, Option.map_some, h3]
          cases (b.pin q).invert <;> simp [pwmMax]
          omega
      · rename_i hr
        have hr' : v = 0 ∨ v = 65535 := by
          unfold pwmMax at hr
          omega
        rw [hlev v (by rcases hr' with h | h <;> simp [h]) hs.1 hs.2]
        rcases hr' with h | h <;> simp [h]

/-! ## The motors -/

theorem motor_spec {b : Board} {p m d : Nat} (h : b.motor p = some (m, d)) :
    b.drv = true ∧ ((m = 4 ∧ d = 5) ∨ (m = 6 ∧ d = 7)) ∧ (p = m ∨ p = d) := by
  unfold Board.motor at h
  split at h
  · rename_i hd
    refine ⟨hd, ?_⟩
    split at h
    · simp only [Option.some.injEq, Prod.mk.injEq] at h; omega
    · split at h
      · simp only [Option.some.injEq, Prod.mk.injEq] at h; omega
      · cases h
  · cases h

theorem motor_none {b : Board} {p : Nat} (h : b.motor p = none) (a : Asked) : request b a p = if a.on p then a.power p else 0 := by
  unfold Board.motor at h
  unfold request
  split at h
  · split at h
    · cases h
    · split at h
      · cases h
      · rename_i h1 h2 h3
        rw [if_neg (by simp [h2]), if_neg (by simp [h3])]
  · rename_i hd
    rw [if_neg (by simp [hd]), if_neg (by simp [hd])]

theorem request_motor {b : Board} {m d : Nat} (hd : b.drv = true) (h : (m = 4 ∧ d = 5) ∨ (m = 6 ∧ d = 7)) (a : Asked) :
    request b a m = (if a.on m ∧ ¬ a.on d then a.power m else 0) ∧ request b a d = (if a.on m ∧ a.on d then a.power m else 0) := by
  unfold request
  rcases h with ⟨rfl, rfl⟩ | ⟨rfl, rfl⟩ <;> simp [hd]

theorem request_le (b : Board) (a : Asked) (h : ∀ q, a.power q ≤ 65535) (q : Nat) : request b a q ≤ 65535 := by
  unfold request
  (repeat' split) <;> first | exact h _ | omega

/-- The pins that `set_out(p)` sets. -/
def Group (b : Board) (p q : Nat) : Prop := q = p ∨ ∃ m d, b.motor p = some (m, d) ∧ (q = m ∨ q = d)

/-! ## The invariant -/

structure Inv (b : Board) (s : St) (a : Asked) (S : Nat → Prop) : Prop where
  cur : s.powerPin = a.cur
  dirp : s.dirPin = a.dir
  on : s.on = a.on
  power : s.power = a.power
  curlt : a.cur < b.num
  dirlt : a.dir < b.num
  le : ∀ q, a.power q ≤ 65535
  hi : ∀ q, b.num ≤ q → a.on q = false
  clean : ∀ q < b.num, Alone b q → (b.pin q).hasDac = false → (b.pin q).timer = none → muxed s.hw (b.pin q).gpio = false
  dir : ∀ q < b.num, Alone b q → a.out q = true → s.hw.dir (b.pin q).gpio = true
  shown : ∀ q < b.num, Alone b q → a.out q = true → ¬ S q → Shown (b.pin q) s.hw (request b a q)

/-- One output: the others stay, this one is right. -/
theorem rawOut_inv {b : Board} {s : St} {a : Asked} {S : Nat → Prop} (i : Inv b s a S) {p : Nat} (hp : p < b.num) :
    Inv b { s with hw := rawOut (b.pin p) (request b a p) s.hw } a (fun q => S q ∧ q ≠ p) := by
  refine ⟨i.cur, i.dirp, i.on, i.power, i.curlt, i.dirlt, i.le, i.hi, ?_, ?_, ?_⟩
  · intro q hq ha hd ht
    by_cases e : p = q
    · subst e
      show muxed (rawOut _ _ _) _ = false
      rw [rawOut_clean _ _ _ hd ht]
      exact i.clean p hq ha hd ht
    · show muxed (rawOut _ _ _) _ = false
      rw [(shown_fr ha hp e (fr_rawOut _ _ _)).2.2]
      exact i.clean q hq ha hd ht
  · intro q hq ha ho
    show (rawOut _ _ _).dir _ = true
    rw [rawOut_dir]
    exact i.dir q hq ha ho
  · intro q hq ha ho hS
    by_cases e : p = q
    · subst e
      exact rawOut_shown _ _ _ (i.clean p hq ha)
    · exact (shown_fr ha hp e (fr_rawOut _ _ _)).1 _ (i.shown q hq ha ho (fun h => hS ⟨h, Ne.symm e⟩))

theorem Inv.mono {b : Board} {s : St} {a : Asked} {S S' : Nat → Prop} (i : Inv b s a S) (h : ∀ q, S q → S' q) : Inv b s a S' :=
  ⟨i.cur, i.dirp, i.on, i.power, i.curlt, i.dirlt, i.le, i.hi, i.clean, i.dir, fun q hq ha ho hS => i.shown q hq ha ho (fun hh => hS (h q hh))⟩

theorem motorFirst_eq {b : Board} {s : St} {a : Asked} {S : Nat → Prop} (i : Inv b s a S) {p m d : Nat} (hm : b.motor p = some (m, d)) :
    motorFirst b m d s = rawOut (b.pin (if s.on d then m else d)) (request b a (if s.on d then m else d)) s.hw ∧
    s.want m = request b a (if s.on d then d else m) := by
  obtain ⟨hd, hmd, _⟩ := motor_spec hm
  obtain ⟨r1, r2⟩ := request_motor hd hmd a
  unfold motorFirst St.want
  rw [i.on, i.power]
  cases e : a.on d
  · simp only [Bool.false_eq_true, if_false]
    rw [r2, r1, e]
    simp
  · simp only [if_true]
    rw [r2, r1, e]
    simp

theorem setOut_inv {b : Board} (hb : Sound b) {s : St} {a : Asked} {S : Nat → Prop} {p : Nat} (i : Inv b s a S) (hS : ∀ q, S q → Group b p q)
    (hp : p < b.num) : Inv b (setOut b p s) a (fun _ => False) := by
  unfold setOut
  cases hm : b.motor p with
  | none =>
    have e : s.want p = request b a p := by rw [motor_none hm]; unfold St.want; rw [i.on, i.power]
    simp only [e]
    refine (rawOut_inv i hp).mono ?_
    rintro q ⟨hq, hne⟩
    rcases hS q hq with h | ⟨m, d, h, _⟩
    · exact hne h
    · rw [hm] at h; cases h
  | some md =>
    obtain ⟨m, d⟩ := md
    obtain ⟨hd, hmd, hpm⟩ := motor_spec hm
    have hn := hb.drv hd
    obtain ⟨e1, e2⟩ := motorFirst_eq i hm
    simp only [e1, e2]
    have h1 : (if s.on d then m else d) < b.num := by split <;> omega
    have h2 : (if s.on d then d else m) < b.num := by split <;> omega
    refine (rawOut_inv (rawOut_inv i h1) h2).mono ?_
    rintro q ⟨⟨hq, hn1⟩, hn2⟩
    have : q = m ∨ q = d := by
      rcases hS q hq with h | ⟨m', d', h, hh⟩
      · rw [h]; exact hpm
      · rw [hm] at h; cases h; exact hh
    cases e : s.on d <;> rw [e] at hn1 hn2 <;> simp at hn1 hn2 <;> rcases this with h | h <;> first | exact hn1 h | exact hn2 h

theorem muxed_enableOut (b : Board) (p : Nat) (s : St) (h : muxed s.hw (b.pin p).gpio = false) : muxed (enableOut b p s).hw (b.pin p).gpio = false := by
  unfold enableOut
  simp only []
  unfold enableOutput
  rw [muxed_plain]
  split
  · exact muxed_clr ..
  · exact h

theorem setDirOut_inv {b : Board} (hb : Sound b) {s : St} {a : Asked} {p : Nat} (i : Inv b s a (fun _ => False)) (hp : p < b.num) :
    Inv b (setDirOut b p s) { a with out := fun q => decide (q = p) || a.out q } (fun _ => False) := by
  have f := fr_enableOut b p s
  refine setOut_inv hb (S := fun q => q = p) ⟨i.cur, i.dirp, i.on, i.power, i.curlt, i.dirlt, i.le, i.hi, ?_, ?_, ?_⟩ (fun q h => Or.inl h) hp
  · intro q hq ha hd ht
    by_cases e : p = q
    · subst e
      exact muxed_enableOut b p s (i.clean p hq ha hd ht)
    · rw [(shown_fr ha hp e f).2.2]
      exact i.clean q hq ha hd ht
  · intro q hq ha ho
    by_cases e : p = q
    · subst e
      unfold enableOut
      exact upd_same ..
    · rw [(shown_fr ha hp e f).2.1]
      refine i.dir q hq ha ?_
      simpa [Ne.symm e] using ho
  · intro q hq ha ho hS
    refine (shown_fr ha hp (Ne.symm hS) f).1 _ ?_
    refine i.shown q hq ha ?_ (fun h => h)
    simpa [hS] using ho

theorem muxed_setDirIn (b : Board) (p : Nat) (s : St) : muxed (setDirIn b p s).hw (b.pin p).gpio = false := by
  unfold setDirIn
  simp only []
  unfold enableInput
  cases s.pull p <;> simp only [] <;> rw [muxed_cfgSet] <;> simp

theorem setDirIn_inv {b : Board} {s : St} {a : Asked} {p : Nat} (i : Inv b s a (fun _ => False)) (hp : p < b.num) :
    Inv b (setDirIn b p s) { a with out := fun q => !decide (q = p) && a.out q } (fun _ => False) := by
  have f := fr_setDirIn b p s
  refine ⟨i.cur, i.dirp, i.on, i.power, i.curlt, i.dirlt, i.le, i.hi, ?_, ?_, ?_⟩
  · intro q hq ha hd ht
    by_cases e : p = q
    · subst e
      exact muxed_setDirIn b p s
    · rw [(shown_fr ha hp e f).2.2]
      exact i.clean q hq ha hd ht
  · intro q hq ha ho
    have e : p ≠ q := by rintro rfl; simp at ho
    rw [(shown_fr ha hp e f).2.1]
    refine i.dir q hq ha ?_
    simpa [Ne.symm e] using ho
  · intro q hq ha ho _
    have e : p ≠ q := by rintro rfl; simp at ho
    refine (shown_fr ha hp e f).1 _ (i.shown q hq ha ?_ (fun h => h))
    simpa [Ne.symm e] using ho

/-- After a change of what is asked of pin `p`, only the pins of its group are not right. -/
theorem Inv.ask {b : Board} {s s' : St} {a a' : Asked} (i : Inv b s a (fun _ => False)) {p : Nat} (hp : p < b.num)
    (hw : s'.hw = s.hw) (h1 : s'.powerPin = s.powerPin) (h2 : s'.dirPin = s.dirPin) (h3 : s'.on = a'.on) (h4 : s'.power = a'.power)
    (h5 : a'.cur = a.cur) (h6 : a'.dir = a.dir) (h7 : a'.out = a.out) (hon : ∀ q, q ≠ p → a'.on q = a.on q)
    (hpw : ∀ q, q ≠ p → a'.power q = a.power q) (hle : a'.power p ≤ 65535) : Inv b s' a' (Group b p) := by
  refine ⟨h1.trans (i.cur.trans h5.symm), h2.trans (i.dirp.trans h6.symm), h3, h4, h5 ▸ i.curlt, h6 ▸ i.dirlt, ?_, ?_, ?_, ?_, ?_⟩
  · intro q
    by_cases e : q = p
    · rw [e]; exact hle
    · rw [hpw q e]; exact i.le q
  · intro q hq
    rw [hon q (by omega)]; exact i.hi q hq
  · rw [hw]; exact i.clean
  · rw [hw, h7]; exact i.dir
  · rw [hw, h7]
    intro q hq ha ho hS
    have e : request b a' q = request b a q := by
      have e0 : q ≠ p := fun h => hS (Or.inl h)
      unfold request
      by_cases c1 : b.drv = true ∧ (q = 4 ∨ q = 6)
      · rw [if_pos c1, if_pos c1]
        have e1 : q + 1 ≠ p := by
          intro h
          refine hS (Or.inr ⟨q, q + 1, ?_, Or.inl rfl⟩)
          unfold Board.motor
          rw [if_pos c1.1, if_neg (by omega), if_pos (by omega), ← h]
          simp
        rw [hon q e0, hon _ e1, hpw q e0]
      · rw [if_neg c1, if_neg c1]
        by_cases c2 : b.drv = true ∧ (q = 5 ∨ q = 7)
        · rw [if_pos c2, if_pos c2]
          have e1 : q - 1 ≠ p := by
            intro h
            refine hS (Or.inr ⟨q - 1, q, ?_, Or.inr rfl⟩)
            unfold Board.motor
            rw [if_pos c2.1, if_pos (by omega), ← h]
            simp only [Option.some.injEq, Prod.mk.injEq, true_and]
            omega
          rw [hon q e0, hon _ e1, hpw _ e1]
        · rw [if_neg c2, if_neg c2, hon q e0, hpw q e0]
    rw [e]
    exact i.shown q hq ha ho (fun h => h)

theorem stop_inv {b : Board} (hb : Sound b) : ∀ (n p : Nat) (s : St) (a : Asked), Inv b s a (fun _ => False) → p + n = b.num →
    (∀ q < p, a.on q = false) → Inv b (stopFrom b n p s) { a with on := fun _ => false } (fun _ => False)
  | 0, p, s, a, i, hn, hz => by
    have : a.on = fun _ => false := by
      funext q
      by_cases h : q < p
      · exact hz q h
      · exact i.hi q (by omega)
    unfold stopFrom
    rw [← this]
    exact i
  | n + 1, p, s, a, i, hn, hz => by
    unfold stopFrom
    split
    · have i2 : Inv b (s.turn p false) { a with on := upd a.on p false } (Group b p) :=
        i.ask (by omega) rfl rfl rfl (by show upd s.on p false = _; rw [i.on]) i.power rfl rfl rfl (fun q h => upd_ne _ _ h) (fun _ _ => rfl) (i.le p)
      have i3 := setOut_inv hb i2 (fun q h => h) (by omega)
      have := stop_inv hb n (p + 1) _ _ i3 (by omega) (fun q hq => by
        by_cases e : q = p
        · rw [e]; exact upd_same ..
        · exact (upd_ne a.on false e).trans (hz q (by omega)))
      exact this
    · rename_i hon
      refine stop_inv hb n (p + 1) s a i (by omega) (fun q hq => ?_)
      by_cases e : q = p
      · rw [e, ← i.on]; simpa using hon
      · exact hz q (by omega)

theorem setpower_inv {b : Board} (hb : Sound b) {s : St} {a : Asked} (i : Inv b s a (fun _ => False)) {w : Nat} (hw : w ≤ 65535) :
    Inv b (setOut b s.powerPin { s with power := upd s.power s.powerPin w }) { a with power := fun q => if q = a.cur then w else a.power q } (fun _ => False) := by
  rw [i.cur]
  refine setOut_inv hb (i.ask (p := a.cur) i.curlt rfl i.cur.symm rfl i.on ?_ rfl rfl rfl (fun _ _ => rfl) (fun q h => if_neg h) ?_) (fun q h => h) i.curlt
  · show upd s.power a.cur w = _
    rw [i.power]; rfl
  · show (if a.cur = a.cur then w else _) ≤ _
    rw [if_pos rfl]; exact hw

theorem turn_inv {b : Board} (hb : Sound b) {s : St} {a a' : Asked} (i : Inv b s a (fun _ => False)) {p : Nat} (hp : p < b.num) {v : Bool}
    (ha : a' = { a with on := upd a.on p v }) : Inv b (setOut b p (s.turn p v)) a' (fun _ => False) := by
  subst ha
  exact setOut_inv hb (i.ask (p := p) hp rfl rfl rfl (by show upd s.on p v = _; rw [i.on]) i.power rfl rfl rfl (fun q h => upd_ne _ _ h)
    (fun _ _ => rfl) (i.le p)) (fun q h => h) hp

theorem upd_true (f : Nat → Bool) (p : Nat) : (fun q => decide (q = p) || f q) = upd f p true := by
  funext q; unfold upd; by_cases h : q = p <;> simp [h]
theorem upd_false (f : Nat → Bool) (p : Nat) : (fun q => !decide (q = p) && f q) = upd f p false := by
  funext q; unfold upd; by_cases h : q = p <;> simp [h]

/-- The calls whose power is a number. -/
def Ok (b : Board) : Call → Prop
  | .talkto p d => p < b.num ∧ d < b.num
  | .read p => p < b.num
  | .setpower v => ∃ w, powerWord v = some w
  | _ => True

theorem powerWord_le {v : BitVec 32} {w : Nat} (h : powerWord v = some w) : w ≤ 65535 := by
  unfold powerWord at h
  extract_lets p q f at h
  split at h
  · rename_i hc
    simp only [Option.some.injEq] at h
    omega
  · cases h

theorem call_inv {b : Board} (hb : Sound b) {s : St} {a : Asked} (i : Inv b s a (fun _ => False)) {c : Call} (hc : Ok b c) :
    ∃ s', call b c s = some s' ∧ Inv b s' (told a c) (fun _ => False) := by
  cases c with
  | talkto p d =>
    refine ⟨_, rfl, ?_⟩
    have i1 := setDirOut_inv hb i hc.1
    have fin : ∀ (s : St) (o : Nat → Bool), Inv b s { a with out := o } (fun _ => False) → o = (told a (.talkto p d)).out →
        Inv b { s with powerPin := p, dirPin := d } (told a (.talkto p d)) (fun _ => False) := by
      intro s o j e
      subst e
      exact ⟨rfl, rfl, j.on, j.power, hc.1, hc.2, j.le, j.hi, j.clean, j.dir, fun q hq ha ho hS => j.shown q hq ha ho hS⟩
    unfold talkto
    simp only []
    by_cases e : p = d
    · rw [if_neg (by simpa using e)]
      refine fin _ _ i1 ?_
      funext q
      simp only [told]
      rw [← e]
      by_cases h : q = p <;> simp [h]
    · rw [if_pos e]
      refine fin _ (fun q => decide (q = d) || (decide (q = p) || a.out q)) (setDirOut_inv hb i1 hc.2) ?_
      funext q
      simp only [told]
      cases decide (q = d) <;> cases decide (q = p) <;> cases a.out q <;> rfl
  | setpower v =>
    obtain ⟨w, hw⟩ := hc
    refine ⟨setOut b s.powerPin { s with power := upd s.power s.powerPin w }, ?_, ?_⟩
    · show (powerWord v).bind _ = _
      rw [hw]; rfl
    · show Inv b _ { a with power := fun q => if q = a.cur then (powerWord v).getD 0 else a.power q } _
      rw [hw]
      exact setpower_inv hb i (powerWord_le hw)
  | setleft => refine ⟨_, rfl, ?_⟩; rw [i.dirp]; exact turn_inv hb i i.dirlt (by simp only [told]; rw [upd_true])
  | setright => refine ⟨_, rfl, ?_⟩; rw [i.dirp]; exact turn_inv hb i i.dirlt (by simp only [told]; rw [upd_false])
  | on => refine ⟨_, rfl, ?_⟩; rw [i.cur]; exact turn_inv hb i i.curlt (by simp only [told]; rw [upd_true])
  | off => refine ⟨_, rfl, ?_⟩; rw [i.cur]; exact turn_inv hb i i.curlt (by simp only [told]; rw [upd_false])
  | pullnone p => exact ⟨_, rfl, ⟨i.cur, i.dirp, i.on, i.power, i.curlt, i.dirlt, i.le, i.hi, i.clean, i.dir, i.shown⟩⟩
  | pullup p => exact ⟨_, rfl, ⟨i.cur, i.dirp, i.on, i.power, i.curlt, i.dirlt, i.le, i.hi, i.clean, i.dir, i.shown⟩⟩
  | pulldown p => exact ⟨_, rfl, ⟨i.cur, i.dirp, i.on, i.power, i.curlt, i.dirlt, i.le, i.hi, i.clean, i.dir, i.shown⟩⟩
  | read p => exact ⟨_, rfl, setDirIn_inv i hc⟩
  | stopall => exact ⟨_, rfl, stop_inv hb b.num 0 s a i (by omega) (fun q h => absurd h (by omega))⟩

theorem muxed_initPin (x : Pin) (h : Hw) (g : Gp) (hg : muxed h g = false ∨ g = x.gpio) : muxed (initPin x h) g = false := by
  by_cases e : g = x.gpio
  · subst e
    unfold initPin enableInput
    simp only []
    rw [muxed_cfgSet]; simp
  · unfold muxed
    rw [(fr_initPin x h).cfg g e]
    rcases hg with hg | hg
    · exact hg
    · exact absurd hg e

theorem muxed_initAll : ∀ (l : List Pin) (h : Hw) (g : Gp), muxed h g = false ∨ (∃ x ∈ l, g = x.gpio) →
    muxed (l.foldl (fun h x => initPin x h) h) g = false
  | [], h, g, hg => by
    rcases hg with hg | ⟨x, hx, _⟩
    · exact hg
    · cases hx
  | x :: l, h, g, hg => by
    refine muxed_initAll l (initPin x h) g ?_
    rcases hg with hg | ⟨y, hy, e⟩
    · exact Or.inl (muxed_initPin x h g (Or.inl hg))
    · cases hy with
      | head => exact Or.inl (muxed_initPin _ h g (Or.inr e))
      | tail _ hy => exact Or.inr ⟨y, hy, e⟩

theorem pin_mem {b : Board} {q : Nat} (h : q < b.num) : b.pin q ∈ b.pins := by
  unfold Board.num at h
  unfold Board.pin
  rw [List.getD_eq_getElem?_getD, List.getElem?_eq_getElem h]
  simp

theorem init_inv {b : Board} (hb : Sound b) (h : Hw) : Inv b (init b h) start (fun _ => False) := by
  have i0 : Inv b (ready b h) start (fun _ => False) := by
    refine ⟨rfl, rfl, rfl, rfl, hb.pos, hb.pos, fun _ => Nat.le_refl _, fun _ _ => rfl, ?_, ?_, ?_⟩
    · intro q hq _ _ _
      exact muxed_initAll _ _ _ (Or.inr ⟨_, pin_mem hq, rfl⟩)
    · intro q _ _ ho; cases ho
    · intro q _ _ ho; cases ho
  unfold init
  cases hl : b.lamps with
  | none => exact i0
  | some p =>
    have hp := (hb.lamps p hl).1
    have i1 := setDirIn_inv (setDirOut_inv hb i0 hp) hp
    have e : ({ start with out := fun q => !decide (q = p) && (decide (q = p) || start.out q) } : Asked) = start := by
      have : (fun q => !decide (q = p) && (decide (q = p) || start.out q)) = start.out := by
        funext q
        by_cases h : q = p <;> simp [start, h]
      rw [this]
    rw [← e]
    exact i1

theorem calls_inv {b : Board} (hb : Sound b) : ∀ (l : List Call) (s : St) (a : Asked), (∀ c ∈ l, Ok b c) → Inv b s a (fun _ => False) →
    ∃ s', calls b l s = some s' ∧ Inv b s' (l.foldl told a) (fun _ => False)
  | [], s, a, _, i => ⟨s, rfl, i⟩
  | c :: l, s, a, hl, i => by
    obtain ⟨s1, h1, i1⟩ := call_inv hb i (hl c (.head _))
    obtain ⟨s2, h2, i2⟩ := calls_inv hb l s1 _ (fun c h => hl c (.tail _ h)) i1
    exact ⟨s2, by unfold calls; rw [h1]; exact h2, i2⟩

end Snek.Pins
