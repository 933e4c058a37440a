import Verif.Proofs.Pins
import Verif.Props.C70
/-!
# C82: Pins of the SAMD21 boards

`gets` (Spec/Pins) is what a thing connected to a pin is given with these registers, by the data sheet of the chip; `level` is what it should be given after
the calls `told`. The chip may be in any state before the program starts. The boards are given by the tables in the code.
-/
namespace Snek.Pins
open Spec Spec.Pins Snek.Time
open Snek.Gpio (clampN pos_clamp clamp_le fkey_inj rounded_scale)

/-! ## The power -/

theorem pos65535 : Pos 0x477fff00 (65535 * 2 ^ 149) := ⟨by decide, by decide +kernel⟩

theorem half65535_le (k : Int) : halfUp 65535 (fmag (clampN k)) ≤ 65535 := by
  have h := halfUp_mono (c := 65535) (clamp_le k)
  have e : halfUp 65535 (2 ^ 149) = 65535 := by decide +kernel
  omega

theorem powerWord_in (k : Int) (u : BitVec 32) (hu : u = BitVec.ofNat 32 (clampN k)) :
    powerWord u = some (halfUp 65535 (fmag (clampN k))) := by
  have hp := pos_clamp k
  rw [← hu] at hp
  have hle : clampN k ≤ 0x3f800000 := Nat.min_le_right _ _
  have hn : u.toNat = clampN k := by rw [hu, BitVec.toNat_ofNat]; omega
  have hk : fkey u = clampN k := by unfold fkey; rw [hn, if_pos (by omega)]
  have h1 : fltF u 0 = false := by
    unfold fltF
    rw [hk, decide_eq_false (by have : fkey 0 = 0 := rfl; omega)]; simp
  have h2 : fltF 0x3f800000 u = false := by
    unfold fltF
    rw [hk, decide_eq_false (by have : fkey 0x3f800000 = 0x3f800000 := rfl; omega)]; simp
  have hx : fmag (clampN k) * 65535 ≤ (2 ^ 31 - 1000) * 2 ^ 149 := by
    rw [Nat.mul_comm]
    exact Nat.le_trans (Nat.mul_le_mul_left 65535 (clamp_le k)) (Nat.mul_le_mul_right _ (by decide))
  obtain ⟨a1, a2, a3, _, _⟩ := half_up pos65535 hp hx
  have hb := half65535_le k
  unfold powerWord
  rw [h1]
  simp only [Bool.false_eq_true, if_false]
  rw [h2]
  simp only [Bool.false_eq_true, if_false]
  rw [a2, a3, if_pos]
  · rw [Int.toNat_natCast]
  · exact ⟨rfl, by omega, by omega⟩

theorem powerWord_eq (v : BitVec 32) (hn : isNanF v = false) : powerWord v = some (halfUp 65535 (fmag (clampN (fkey v)))) := by
  by_cases h0 : fkey v < 0
  · have e : clampN (fkey v) = clampN 0 := by unfold clampN; rw [Int.toNat_of_nonpos (by omega)]; rfl
    rw [e, ← powerWord_in 0 0 rfl]
    have h1 : fltF v 0 = true := by
      unfold fltF
      rw [hn, decide_eq_true (by have : fkey 0 = 0 := rfl; omega)]; rfl
    have h2 : fltF 0 0 = false := by decide
    unfold powerWord
    simp only [h1, h2, if_true]
    rfl
  · have h1 : fltF v 0 = false := by
      unfold fltF
      rw [decide_eq_false (by have : fkey 0 = 0 := rfl; omega)]; simp
    by_cases h3 : 0x3f800000 < fkey v
    · have e : clampN (fkey v) = clampN 0x3f800000 := by
        unfold clampN
        rw [Nat.min_eq_right (by omega)]; rfl
      rw [e, ← powerWord_in 0x3f800000 0x3f800000 rfl]
      have h2 : fltF 0x3f800000 v = true := by
        unfold fltF
        rw [hn, decide_eq_true (by have : fkey 0x3f800000 = 0x3f800000 := rfl; omega)]; rfl
      have h4 : fltF 0x3f800000 0 = false := by decide
      have h5 : fltF 0x3f800000 0x3f800000 = false := by decide
      unfold powerWord
      simp only [h1, h2, h4, h5, Bool.false_eq_true, if_false, if_true]
    · by_cases hz : v = 0x80000000
      · subst hz
        decide +kernel
      · refine powerWord_in (fkey v) v ?_
        have : clampN (fkey v) = (fkey v).toNat := Nat.min_eq_left (by omega)
        rw [this]
        exact fkey_inj (by omega) hz

theorem power_aux {x n U H : Nat} (hU : U = 2 * H) (hx : x ≤ 65535 * U)
    (h1 : 16777215 * (16777215 * x + 16777216 * H) < 16777216 ^ 2 * (n * U + U))
    (h2 : 16777216 ^ 2 * (n * U) ≤ 16777217 * (16777217 * x + 16777216 * H)) :
    256 * (n * U) ≤ 256 * x + 131 * U ∧ 256 * x ≤ 256 * (n * U) + 131 * U := by
  generalize n * U = N at *
  omega

/-- `setpower(v)` for `v` from 0 to 1 (a number `v` is `f32val v` units of 2^-149): 65535 v to the nearest whole number, up to 3/256 more than a half. -/
theorem C82_power (v : BitVec 32) (hf : FinNum v) (h0 : 0 ≤ f32val v) (h1 : f32val v ≤ 2 ^ 149) :
    ∃ n, powerWord v = some n ∧ 256 * (n * 2 ^ 149 : Int) ≤ 256 * (65535 * f32val v) + 131 * 2 ^ 149 ∧
      256 * (65535 * f32val v) ≤ 256 * (n * 2 ^ 149 : Int) + 131 * 2 ^ 149 := by
  have hn := (fin_flags hf).1
  have hv : f32val v = (fmag (clampN (fkey v)) : Int) := by
    have hm : ∀ m, Spec.f32mag m = fmag m := fun _ => rfl
    unfold f32val at h0 h1 ⊢
    unfold fkey clampN
    simp only [hm] at *
    split at h0
    · rename_i hlt
      rw [if_pos hlt] at h1
      rw [if_pos hlt, if_pos hlt, Int.toNat_natCast, Nat.min_eq_left]
      · apply Nat.le_of_not_lt
        intro hc
        have h2 : fmag 0x3f800001 ≤ fmag v.toNat := fmag_mono hc
        have h3 : (2:Nat) ^ 149 < fmag 0x3f800001 := by decide +kernel
        have h4 : ((2:Int) ^ 149) = ((2 ^ 149 : Nat) : Int) := by decide +kernel
        rw [h4] at h1
        have h1 := Int.ofNat_le.1 h1
        exact absurd (Nat.lt_of_lt_of_le h3 h2) (Nat.not_lt.2 h1)
    · rename_i hlt
      rw [if_neg hlt, if_neg hlt, Int.toNat_of_nonpos (by omega), Nat.min_eq_left (Nat.zero_le _)]
      have e : fmag 0 = 0 := by decide +kernel
      rw [e]
      omega
  refine ⟨_, powerWord_eq v hn, ?_⟩
  have hx : fmag (clampN (fkey v)) * 65535 ≤ (2 ^ 31 - 1000) * 2 ^ 149 := by
    rw [Nat.mul_comm]
    exact Nat.le_trans (Nat.mul_le_mul_left 65535 (clamp_le _)) (Nat.mul_le_mul_right _ (by decide))
  obtain ⟨_, _, _, a4, a5⟩ := half_up pos65535 (pos_clamp (fkey v)) hx
  have hc := clamp_le (fkey v)
  rw [hv]
  rw [Nat.add_mul, Nat.one_mul] at a4
  have hU : (2:Nat) ^ 149 = 2 * 2 ^ 148 := by decide +kernel
  have r := power_aux hU (by rw [Nat.mul_comm]; exact Nat.mul_le_mul_left 65535 hc) a4 a5
  have h4 : ((2:Int) ^ 149) = ((2 ^ 149 : Nat) : Int) := by decide +kernel
  rw [h4]
  clear hx a4 a5 hc hU hv h0 h1 h4
  generalize halfUp 65535 (fmag (clampN (fkey v))) = n at *
  generalize fmag (clampN (fkey v)) = x at *
  generalize (2:Nat) ^ 149 = U at *
  rw [← Int.natCast_mul]
  generalize n * U = N at *
  omega

/-- Below 0 it is 0, above 1 (also infinite) it is full power. -/
theorem C82_power_limits (v : BitVec 32) : (fltF v 0 = true → powerWord v = some 0) ∧ (fltF 0x3f800000 v = true → powerWord v = some 65535) := by
  constructor
  · intro h
    have hn : isNanF v = false := by unfold fltF at h; cases hh : isNanF v <;> simp_all
    have hk : fkey v < 0 := by unfold fltF at h; simp at h; have : fkey 0#32 = 0 := rfl; omega
    rw [powerWord_eq v hn]
    have e : clampN (fkey v) = 0 := by unfold clampN; rw [Int.toNat_of_nonpos (by omega)]; rfl
    rw [e]
    decide +kernel
  · intro h
    have hn : isNanF v = false := by unfold fltF at h; cases hh : isNanF v <;> simp_all
    have hk : 0x3f800000 < fkey v := by unfold fltF at h; simp at h; have : fkey 0x3f800000#32 = 0x3f800000 := rfl; omega
    rw [powerWord_eq v hn]
    have e : clampN (fkey v) = 0x3f800000 := by unfold clampN; rw [Nat.min_eq_right (by omega)]
    rw [e]
    decide +kernel

/-- More power is not less power. -/
theorem C82_power_mono (v w : BitVec 32) (hv : isNanF v = false) (hw : isNanF w = false) (h : fltF w v = false) :
    ∃ m n, powerWord v = some m ∧ powerWord w = some n ∧ m ≤ n := by
  refine ⟨_, _, powerWord_eq v hv, powerWord_eq w hw, ?_⟩
  have hk : fkey v ≤ fkey w := by unfold fltF at h; simp [hv, hw] at h; exact h
  exact halfUp_mono (c := 65535) (fmag_mono (show clampN (fkey v) ≤ clampN (fkey w) by unfold clampN; omega))

/-! ## The pins -/

theorem valid_ok {b : Board} {c : Call} (h : Valid b c) : Ok b c := by
  cases c with
  | setpower v => exact ⟨_, powerWord_eq v h⟩
  | talkto p d => exact h
  | read p => exact h
  | _ => trivial

theorem run {b : Board} (hb : Sound b) (h : Hw) {l : List Call} (hl : ∀ c ∈ l, Valid b c) :
    ∃ s, calls b l (init b h) = some s ∧ Inv b s (l.foldl told start) (fun _ => False) :=
  calls_inv hb l _ _ (fun c hc => valid_ok (hl c hc)) (init_inv hb h)

/-- After every sequence of calls, every pin that is an output gives what the last calls for it asked for, whatever happened to the other pins. -/
theorem C82_level (b : Board) (hb : Sound b) (h : Hw) (l : List Call) (hl : ∀ c ∈ l, Valid b c) :
    ∃ s, calls b l (init b h) = some s ∧
      ∀ q < b.num, Alone b q → (l.foldl told start).out q = true → gets b s.hw q = some (level b (l.foldl told start) q) := by
  obtain ⟨s, h1, i⟩ := run hb h hl
  exact ⟨s, h1, fun q hq ha ho => shown_drives ha (request_le b _ i.le q) (i.dir q hq ha ho) (i.shown q hq ha ho (fun h => h))⟩

theorem told_append (l : List Call) (c : Call) (a : Asked) : (l ++ [c]).foldl told a = told (l.foldl told a) c := by
  rw [List.foldl_append]; rfl

/-- After `stopall()` every output gives nothing. -/
theorem C82_stopall (b : Board) (hb : Sound b) (h : Hw) (l : List Call) (hl : ∀ c ∈ l, Valid b c) :
    ∃ s, calls b (l ++ [.stopall]) (init b h) = some s ∧
      ∀ q < b.num, Alone b q → (l.foldl told start).out q = true → gets b s.hw q = some 0 := by
  obtain ⟨s, h1, h2⟩ := C82_level b hb h (l ++ [.stopall]) (by
    intro c hc
    rcases List.mem_append.1 hc with hc | hc
    · exact hl c hc
    · rw [List.mem_singleton.1 hc]; trivial)
  refine ⟨s, h1, fun q hq ha ho => ?_⟩
  rw [told_append] at h2
  rw [h2 q hq ha ho]
  simp [level, request, told]

/-- Of the two pins of a motor never are both given power: not after the calls, and not while a call switches from one to the other (whatever is then on, with
whatever power). -/
theorem C82_motor (b : Board) (hb : Sound b) (hd : b.drv = true) (h : Hw) (l : List Call) (hl : ∀ c ∈ l, Valid b c) :
    ∃ s, calls b l (init b h) = some s ∧ ∀ m, m = 4 ∨ m = 6 → Alone b m → Alone b (m + 1) →
      (l.foldl told start).out m = true → (l.foldl told start).out (m + 1) = true →
      (gets b s.hw m = some 0 ∨ gets b s.hw (m + 1) = some 0) ∧
      ∀ on pw, gets b (motorFirst b m (m + 1) { s with on := on, power := pw }) m = some 0 ∨
        gets b (motorFirst b m (m + 1) { s with on := on, power := pw }) (m + 1) = some 0 := by
  obtain ⟨s, h1, i⟩ := run hb h hl
  have h8 := hb.drv hd
  refine ⟨s, h1, fun m hm ha ha' ho ho' => ⟨?_, fun on pw => ?_⟩⟩
  · have g1 := shown_drives ha (request_le b _ i.le m) (i.dir m (by omega) ha ho) (i.shown m (by omega) ha ho (fun h => h))
    have g2 := shown_drives ha' (request_le b _ i.le (m + 1)) (i.dir _ (by omega) ha' ho') (i.shown _ (by omega) ha' ho' (fun h => h))
    obtain ⟨r1, r2⟩ := request_motor (m := m) (d := m + 1) hd (by omega) (l.foldl told start)
    cases e : (l.foldl told start).on (m + 1) with
    | false =>
      right
      rw [g2, r2, e]
      simp
    | true =>
      left
      rw [g1, r1, e]
      simp
  · have zero : ∀ q, q < b.num → Alone b q → (l.foldl told start).out q = true → gets b (rawOut (b.pin q) 0 s.hw) q = some 0 := by
      intro q hq ha ho
      rw [shown_drives ha (Nat.zero_le _) (by rw [rawOut_dir]; exact i.dir q hq ha ho) (rawOut_shown _ _ _ (i.clean q hq ha))]
      simp
    unfold motorFirst
    cases e : on (m + 1) with
    | true => left; simp only [e, if_true]; exact zero m (by omega) ha ho
    | false => right; simp only [e, Bool.false_eq_true, if_false]; exact zero (m + 1) (by omega) ha' ho'

/-! ## Inputs -/

/-- A pin outside the group of `p` is left alone. -/
theorem setOut_frame {b : Board} (hb : Sound b) {p q : Nat} (hp : p < b.num) (ha : Alone b q) (hg : ¬ Group b p q) (s : St) :
    (setOut b p s).hw.dir (b.pin q).gpio = s.hw.dir (b.pin q).gpio ∧ muxed (setOut b p s).hw (b.pin q).gpio = muxed s.hw (b.pin q).gpio := by
  have one : ∀ (r v : Nat) (h : Hw), r < b.num → r ≠ q → (rawOut (b.pin r) v h).dir (b.pin q).gpio = h.dir (b.pin q).gpio ∧
      muxed (rawOut (b.pin r) v h) (b.pin q).gpio = muxed h (b.pin q).gpio := by
    intro r v h hr hrq
    have := shown_fr ha hr hrq (fr_rawOut (b.pin r) v h)
    exact ⟨this.2.1, this.2.2⟩
  unfold setOut
  cases hm : b.motor p with
  | none => exact one p _ _ hp (fun h => hg (Or.inl h.symm))
  | some md =>
    obtain ⟨m, d⟩ := md
    obtain ⟨hd, hmd, _⟩ := motor_spec hm
    have hn := hb.drv hd
    have n1 : m ≠ q := fun h => hg (Or.inr ⟨m, d, hm, Or.inl h.symm⟩)
    have n2 : d ≠ q := fun h => hg (Or.inr ⟨m, d, hm, Or.inr h.symm⟩)
    have h1 : (if s.on d then d else m) < b.num ∧ (if s.on d then d else m) ≠ q := by split <;> exact ⟨by omega, by assumption⟩
    have o := one _ (s.want m) (motorFirst b m d s) h1.1 h1.2
    have o2 : (motorFirst b m d s).dir (b.pin q).gpio = s.hw.dir (b.pin q).gpio ∧ muxed (motorFirst b m d s) (b.pin q).gpio = muxed s.hw (b.pin q).gpio := by
      unfold motorFirst
      split
      · exact one m _ _ (by omega) n1
      · exact one d _ _ (by omega) n2
    exact ⟨o.1.trans o2.1, o.2.trans o2.2⟩

/-- The pin does not drive, and nothing on or current concerns it. -/
structure Idle (b : Board) (q : Nat) (s : St) : Prop where
  cur : s.powerPin < b.num ∧ ¬ Group b s.powerPin q
  dirp : s.dirPin < b.num ∧ ¬ Group b s.dirPin q
  on : ∀ p, s.on p = true → p < b.num ∧ ¬ Group b p q
  dir : s.hw.dir (b.pin q).gpio = false
  mux : muxed s.hw (b.pin q).gpio = false

theorem idle_setOut {b : Board} (hb : Sound b) {p q : Nat} (hp : p < b.num ∧ ¬ Group b p q) (ha : Alone b q) {s : St} (i : Idle b q s) : Idle b q (setOut b p s) := by
  obtain ⟨f1, f2⟩ := setOut_frame hb hp.1 ha hp.2 s
  have e : (setOut b p s).powerPin = s.powerPin ∧ (setOut b p s).dirPin = s.dirPin ∧ (setOut b p s).on = s.on := by
    unfold setOut; split <;> exact ⟨rfl, rfl, rfl⟩
  exact ⟨e.1 ▸ i.cur, e.2.1 ▸ i.dirp, e.2.2 ▸ i.on, f1.trans i.dir, f2.trans i.mux⟩

theorem idle_turn {b : Board} {p q : Nat} (hp : p < b.num ∧ ¬ Group b p q) {s : St} (i : Idle b q s) (v : Bool) : Idle b q (s.turn p v) := by
  refine ⟨i.cur, i.dirp, fun r hr => ?_, i.dir, i.mux⟩
  by_cases e : r = p
  · rw [e]; exact hp
  · have : s.on r = true := (upd_ne s.on v e).symm.trans hr
    exact i.on r this

theorem idle_setDirOut {b : Board} (hb : Sound b) {p q : Nat} (hp : p < b.num ∧ ¬ Group b p q) (ha : Alone b q) {s : St} (i : Idle b q s) : Idle b q (setDirOut b p s) := by
  unfold setDirOut
  apply idle_setOut hb hp ha
  have f := shown_fr ha hp.1 (fun h => hp.2 (Or.inl h.symm)) (fr_enableOut b p s)
  exact ⟨i.cur, i.dirp, i.on, f.2.1.trans i.dir, f.2.2.trans i.mux⟩

theorem setDirIn_dir (b : Board) (p : Nat) (s : St) : (setDirIn b p s).hw.dir (b.pin p).gpio = false := by
  unfold setDirIn enableInput
  simp only []
  split <;> exact upd_same ..

theorem idle_setDirIn {b : Board} {p q : Nat} (hp : p < b.num) (ha : Alone b q) {s : St} (i : Idle b q s) : Idle b q (setDirIn b p s) := by
  by_cases e : p = q
  · subst e
    exact ⟨i.cur, i.dirp, i.on, setDirIn_dir b p s, muxed_setDirIn b p s⟩
  · have f := shown_fr ha hp e (fr_setDirIn b p s)
    exact ⟨i.cur, i.dirp, i.on, f.2.1.trans i.dir, f.2.2.trans i.mux⟩

theorem idle_stop {b : Board} (hb : Sound b) {q : Nat} (ha : Alone b q) : ∀ (n p : Nat) (s : St), Idle b q s → Idle b q (stopFrom b n p s)
  | 0, _, _, i => i
  | n + 1, p, s, i => by
    unfold stopFrom
    split
    · rename_i hon
      exact idle_stop hb ha n (p + 1) _ (idle_setOut hb (i.on p hon) ha (idle_turn (i.on p hon) i false))
    · exact idle_stop hb ha n (p + 1) s i

theorem idle_call {b : Board} (hb : Sound b) {q : Nat} (ha : Alone b q) {s s' : St} {c : Call} (hc : Valid b c)
    (ht : ∀ p d, c = .talkto p d → ¬ Group b p q ∧ ¬ Group b d q) (h : call b c s = some s') (i : Idle b q s) : Idle b q s' := by
  cases c with
  | talkto p d =>
    obtain ⟨n1, n2⟩ := ht p d rfl
    cases h
    have i1 := idle_setDirOut hb ⟨hc.1, n1⟩ ha i
    unfold talkto
    simp only []
    split
    · have i2 := idle_setDirOut hb ⟨hc.2, n2⟩ ha i1
      exact ⟨⟨hc.1, n1⟩, ⟨hc.2, n2⟩, i2.on, i2.dir, i2.mux⟩
    · exact ⟨⟨hc.1, n1⟩, ⟨hc.2, n2⟩, i1.on, i1.dir, i1.mux⟩
  | setpower v =>
    simp only [call, Option.bind_eq_bind] at h
    cases hw : powerWord v with
    | none => rw [hw] at h; simp at h
    | some w =>
      rw [hw] at h
      cases h
      exact idle_setOut hb i.cur ha ⟨i.cur, i.dirp, i.on, i.dir, i.mux⟩
  | setleft => cases h; exact idle_setOut hb i.dirp ha (idle_turn i.dirp i _)
  | setright => cases h; exact idle_setOut hb i.dirp ha (idle_turn i.dirp i _)
  | on => cases h; exact idle_setOut hb i.cur ha (idle_turn i.cur i _)
  | off => cases h; exact idle_setOut hb i.cur ha (idle_turn i.cur i _)
  | pullnone p => cases h; exact ⟨i.cur, i.dirp, i.on, i.dir, i.mux⟩
  | pullup p => cases h; exact ⟨i.cur, i.dirp, i.on, i.dir, i.mux⟩
  | pulldown p => cases h; exact ⟨i.cur, i.dirp, i.on, i.dir, i.mux⟩
  | read p => cases h; exact idle_setDirIn hc ha i
  | stopall => cases h; exact idle_stop hb ha _ _ _ i

theorem idle_initAll {g : Gp} : ∀ (l : List Pin) (h : Hw), h.dir g = false ∨ (∃ x ∈ l, g = x.gpio) → (l.foldl (fun h x => initPin x h) h).dir g = false
  | [], h, hg => by
    rcases hg with hg | ⟨x, hx, _⟩
    · exact hg
    · cases hx
  | x :: l, h, hg => by
    refine idle_initAll l (initPin x h) ?_
    by_cases e : g = x.gpio
    · left
      subst e
      exact upd_same ..
    · rcases hg with hg | ⟨y, hy, e'⟩
      · left
        rw [(fr_initPin x h).dir g e]; exact hg
      · cases hy with
        | head => exact absurd e' e
        | tail _ hy => exact Or.inr ⟨y, hy, e'⟩

theorem group_zero {b : Board} {q : Nat} (hq : q ≠ 0) : ¬ Group b 0 q := by
  rintro (h | ⟨m, d, h, hh⟩)
  · exact hq h
  · obtain ⟨_, hmd, hp⟩ := motor_spec h
    omega

theorem idle_init {b : Board} (hb : Sound b) (h : Hw) {q : Nat} (hq : q < b.num) (h0 : q ≠ 0) (ha : Alone b q) : Idle b q (init b h) := by
  have i0 : Idle b q (ready b h) :=
    ⟨⟨hb.pos, group_zero h0⟩, ⟨hb.pos, group_zero h0⟩, fun p hp => (by cases hp), idle_initAll _ _ (Or.inr ⟨_, pin_mem hq, rfl⟩),
      muxed_initAll _ _ _ (Or.inr ⟨_, pin_mem hq, rfl⟩)⟩
  unfold init
  cases hl : b.lamps with
  | none => exact i0
  | some p =>
    obtain ⟨hp, hm⟩ := hb.lamps p hl
    by_cases e : p = q
    · subst e
      have e2 : (setDirIn b p (setDirOut b p (ready b h))).powerPin = 0 ∧ (setDirIn b p (setDirOut b p (ready b h))).dirPin = 0 ∧
          (setDirIn b p (setDirOut b p (ready b h))).on = fun _ => false := by
        unfold setDirIn setDirOut setOut
        rw [hm]
        exact ⟨rfl, rfl, rfl⟩
      refine ⟨e2.1 ▸ i0.cur, e2.2.1 ▸ i0.dirp, fun r hr => ?_, setDirIn_dir .., muxed_setDirIn ..⟩
      simp only [] at hr
      rw [e2.2.2] at hr
      cases hr
    · refine idle_setDirIn hp ha (idle_setDirOut hb ⟨hp, ?_⟩ ha i0)
      rintro (h | ⟨m, d, h, _⟩)
      · exact e h.symm
      · rw [hm] at h; cases h

/-- The pin is one of those given, or of the same motor. -/
def Concerns (b : Board) (p q : Nat) : Prop := q = p ∨ (b.drv = true ∧ ((q / 2 = 2 ∧ p / 2 = 2) ∨ (q / 2 = 3 ∧ p / 2 = 3)))

theorem group_concerns {b : Board} {p q : Nat} (h : Group b p q) : Concerns b p q := by
  rcases h with h | ⟨m, d, h, hh⟩
  · exact Or.inl h
  · obtain ⟨hd, hmd, hp⟩ := motor_spec h
    exact Or.inr ⟨hd, by omega⟩

/-- A pin other than pin 0 that is never talked to (nor the other pin of its motor) drives nothing: it stays an input. -/
theorem C82_input (b : Board) (hb : Sound b) (h : Hw) (l : List Call) (hl : ∀ c ∈ l, Valid b c) (q : Nat) (hq : q < b.num) (h0 : q ≠ 0) (ha : Alone b q)
    (ht : ∀ p d, .talkto p d ∈ l → ¬ Concerns b p q ∧ ¬ Concerns b d q) :
    ∃ s, calls b l (init b h) = some s ∧ drives s.hw (b.pin q).gpio = none := by
  have gen : ∀ (l : List Call) (s s' : St), (∀ c ∈ l, Valid b c) → (∀ p d, .talkto p d ∈ l → ¬ Concerns b p q ∧ ¬ Concerns b d q) → Idle b q s →
      calls b l s = some s' → Idle b q s' := by
    intro l
    induction l with
    | nil => intro s s' _ _ i h; cases h; exact i
    | cons c l ih =>
      intro s s' hl ht i h
      unfold calls at h
      cases hc : call b c s with
      | none => rw [hc] at h; cases h
      | some s1 =>
        rw [hc] at h
        refine ih s1 s' (fun c h => hl c (.tail _ h)) (fun p d h => ht p d (.tail _ h)) ?_ h
        refine idle_call hb ha (hl c (.head _)) (fun p d e => ?_) hc i
        have := ht p d (e ▸ .head _)
        exact ⟨fun g => this.1 (group_concerns g), fun g => this.2 (group_concerns g)⟩
  obtain ⟨s, h1, _⟩ := run hb h hl
  have i := gen l _ s hl ht (idle_init hb h hq h0 ha) h1
  refine ⟨s, h1, ?_⟩
  unfold drives
  rw [i.mux, i.dir]
  rfl

theorem pull_setOut (b : Board) (p : Nat) (s : St) : (setOut b p s).pull = s.pull := by unfold setOut; split <;> rfl

theorem pull_stop (b : Board) : ∀ (n p : Nat) (s : St), (stopFrom b n p s).pull = s.pull
  | 0, _, _ => rfl
  | n + 1, p, s => by
    unfold stopFrom
    split
    · rw [pull_stop b n, pull_setOut]; rfl
    · exact pull_stop b n _ _

theorem pull_setDirOut (b : Board) (p : Nat) (s : St) : (setDirOut b p s).pull = s.pull := pull_setOut ..

theorem pull_calls (b : Board) (p : Nat) : ∀ (l : List Call) (s s' : St), calls b l s = some s' →
    s'.pull p = l.foldl (fun m c => if c = .pullnone p then .none else if c = .pullup p then .up else if c = .pulldown p then .down else m) (s.pull p)
  | [], s, s', h => by cases h; rfl
  | c :: l, s, s', h => by
    unfold calls at h
    cases hc : call b c s with
    | none => rw [hc] at h; cases h
    | some s1 =>
      rw [hc] at h
      rw [pull_calls b p l s1 s' h, List.foldl_cons]
      congr 1
      cases c with
      | setpower v =>
        simp only [call, Option.bind_eq_bind] at hc
        cases hw : powerWord v with
        | none => rw [hw] at hc; simp at hc
        | some w => rw [hw] at hc; cases hc; simp [pull_setOut]
      | talkto r d =>
        cases hc
        unfold talkto
        simp only []
        split <;> simp [pull_setDirOut]
      | pullnone r =>
        cases hc
        by_cases e : p = r
        · subst e; simp [upd]
        · have e' := Ne.symm e; simp [upd, e, e']
      | pullup r =>
        cases hc
        by_cases e : p = r
        · subst e; simp [upd]
        · have e' := Ne.symm e; simp [upd, e, e']
      | pulldown r =>
        cases hc
        by_cases e : p = r
        · subst e; simp [upd]
        · have e' := Ne.symm e; simp [upd, e, e']
      | stopall => cases hc; simp [pull_stop]
      | read r => cases hc; simp [setDirIn]
      | on => cases hc; simp [pull_setOut, St.turn]
      | off => cases hc; simp [pull_setOut, St.turn]
      | setleft => cases hc; simp [pull_setOut, St.turn]
      | setright => cases hc; simp [pull_setOut, St.turn]

theorem pull_init (b : Board) (h : Hw) (p : Nat) : (init b h).pull p = if (b.pin p).pullDown then .down else .none := by
  unfold init
  split
  · unfold setDirIn; simp only []; rw [pull_setDirOut]; rfl
  · rfl

/-- `read(p)` makes the pin an input, pulled up, down or not at all as the last call for it said; with no such call, as the board has it. -/
theorem C82_read (b : Board) (hb : Sound b) (h : Hw) (l : List Call) (hl : ∀ c ∈ l, Valid b c) (p : Nat) (_hp : p < b.num) :
    ∃ s, calls b (l ++ [.read p]) (init b h) = some s ∧ drives s.hw (b.pin p).gpio = none ∧
      pulled s.hw (b.pin p).gpio = decide (pullOf b p l ≠ .none) ∧
      (pullOf b p l ≠ .none → s.hw.out (b.pin p).gpio = decide (pullOf b p l = .up)) := by
  obtain ⟨s, h1, _⟩ := run hb h hl
  have split : ∀ (l : List Call) (s s' : St), calls b l s = some s' → calls b (l ++ [.read p]) s = some (setDirIn b p s') := by
    intro l
    induction l with
    | nil => intro s s' h; cases h; rfl
    | cons c l ih =>
      intro s s' h
      unfold calls at h
      show (call b c s).bind _ = _
      cases hc : call b c s with
      | none => rw [hc] at h; cases h
      | some s1 => rw [hc] at h; exact ih s1 s' h
  have hpull : s.pull p = pullOf b p l := by
    rw [pull_calls b p l _ s h1, pull_init]; rfl
  refine ⟨_, split l _ s h1, ?_, ?_, ?_⟩
  · unfold drives
    rw [muxed_setDirIn, setDirIn_dir]
    rfl
  · rw [← hpull]
    unfold setDirIn enableInput pulled
    cases s.pull p <;> simp [cfgSet, upd_same, dirSet, gpioSet]
  · rw [← hpull]
    unfold setDirIn enableInput
    cases s.pull p <;> simp [cfgSet, upd_same, dirSet, gpioSet]

/-- The value: of a pin with a converter that is not pulled, the converter's `adc` of 4095 as the nearest number to their quotient; else 0 or 1. -/
theorem C82_read_value (b : Board) (s : St) (p adc : Nat) (pin : Bool) :
    ((b.pin p).adc = none ∨ s.pull p ≠ .none → readValue b s p pin adc = if pin then 0x3f800000 else 0) ∧
    ((b.pin p).adc ≠ none → s.pull p = .none → adc ≤ 4095 → Rounded (readValue b s p pin adc) (adc * 2 ^ 149) 4095) := by
  constructor
  · intro h
    unfold readValue
    rw [if_neg (by rintro ⟨h1, h2⟩; rcases h with h | h <;> simp_all)]
    cases pin <;> decide +kernel
  · intro h1 h2 h3
    unfold readValue
    rw [if_pos ⟨by cases h : (b.pin p).adc <;> simp_all, h2⟩]
    have d1 : Denotes (intToF adc) adc := intToF_denotes ⟨by omega, by omega⟩
    have d2 : Denotes (intToF 4095) 4095 := intToF_denotes ⟨by omega, by omega⟩
    have hz : fval (intToF 4095) ≠ 0 := by decide +kernel
    have h := fdiv_rounded (intToF adc) (intToF 4095) d1.1 d2.1 hz
    have hs : (f32val (intToF 4095)).sign = 1 ∧ (f32val (intToF 4095)).natAbs = 4095 * 2 ^ 149 := by decide +kernel
    rw [hs.1, hs.2, d1.2, Int.mul_one] at h
    refine rounded_scale (k := 2 ^ 149) (by decide +kernel) ?_
    rw [show (((2 ^ 149 : Nat)) : Int) = 2 ^ 149 by decide +kernel]
    exact h

/-! ## The boards -/

/-- A test for `Alone`. -/
def aloneB (b : Board) (q : Nat) : Bool :=
  (List.range b.num).all (fun p => decide (p = q) || decide ((b.pin p).gpio ≠ (b.pin q).gpio)) &&
  (match (b.pin q).timer with
    | some t => decide ((b.pin q).gpio ≠ ⟨.a, 2⟩) && decide (source (b.pin q).gpio (b.pin q).func = some (t, (b.pin q).chan)) &&
        (List.range b.num).all (fun p => decide (p = q) || decide ((b.pin p).timer ≠ some t) || decide ((b.pin p).chan ≠ (b.pin q).chan))
    | none => true) &&
  (decide ((b.pin q).gpio ≠ ⟨.a, 2⟩) || !(b.pin q).invert)

theorem alone_of {b : Board} {q : Nat} (h : aloneB b q = true) : Alone b q := by
  unfold aloneB at h
  simp only [Bool.and_eq_true, List.all_eq_true, List.mem_range, Bool.or_eq_true, decide_eq_true_eq] at h
  obtain ⟨⟨h1, h2⟩, h3⟩ := h
  refine ⟨fun p hp hpq => (h1 p hp).resolve_left hpq, fun t ht => ?_, fun hg => ?_⟩
  · rw [ht] at h2
    simp only [Bool.and_eq_true, List.all_eq_true, List.mem_range, Bool.or_eq_true, decide_eq_true_eq] at h2
    refine ⟨h2.1.1, h2.1.2, fun p hp hpq ht' => ?_⟩
    rcases h2.2 p hp with (h | h) | h
    · exact absurd h hpq
    · exact absurd ht' h
    · exact h
  · rcases h3 with h3 | h3
    · exact absurd hg h3
    · simpa using h3

/-- All tables but that of the Crickit. -/
def boards : List Board := [feather, itsybitsym0, metrom0, nano33iot, snekboard, xiao, playground]

/-- The tables are as the chip has it: each pin is a different one, the timer channel is one the chip connects to that pin, no other pin has it. Likewise for
the input of the converter. On the Crickit this is true of all pins but four. -/
theorem C82_boards_partial :
    (∀ b ∈ boards, Sound b ∧ (∀ q < b.num, Alone b q) ∧ ∀ q < b.num, ∀ c, (b.pin q).adc = some c → ain (b.pin q).gpio = some c) ∧
    Sound crickit ∧ (∀ q < crickit.num, q ≠ 14 → q ≠ 15 → q ≠ 22 → q ≠ 23 → Alone crickit q) ∧
    (∀ q < crickit.num, ∀ c, (crickit.pin q).adc = some c → ain (crickit.pin q).gpio = some c) := by
  have sound : ∀ b : Board, 8 ≤ b.num → (match b.lamps with | some p => decide (p < b.num) && decide (b.motor p = none) | none => true) = true → Sound b := by
    intro b h8 hl
    refine ⟨by omega, fun _ => h8, fun p hp => ?_⟩
    rw [hp] at hl
    simpa using hl
  have adcs : ∀ b : Board, (∀ q < b.num, ((b.pin q).adc.isNone || decide ((b.pin q).adc = ain (b.pin q).gpio)) = true) →
      ∀ q < b.num, ∀ c, (b.pin q).adc = some c → ain (b.pin q).gpio = some c := by
    intro b h q hq c hc
    have := h q hq
    rw [hc] at this
    simp at this; exact this.symm
  have s1 : ∀ b ∈ boards, 8 ≤ b.num ∧ (match b.lamps with | some p => decide (p < b.num) && decide (b.motor p = none) | none => true) = true := by decide +kernel
  have s2 : ∀ b ∈ boards, ∀ q < b.num, aloneB b q = true := by decide +kernel
  have s3 : ∀ b ∈ boards, ∀ q < b.num, ((b.pin q).adc.isNone || decide ((b.pin q).adc = ain (b.pin q).gpio)) = true := by decide +kernel
  have s4 : ∀ q < crickit.num, q ≠ 14 → q ≠ 15 → q ≠ 22 → q ≠ 23 → aloneB crickit q = true := by decide +kernel
  refine ⟨fun b hb => ⟨sound b (s1 b hb).1 (s1 b hb).2, fun q hq => alone_of (s2 b hb q hq), adcs b (s3 b hb)⟩, sound crickit (by decide) (by decide +kernel),
    fun q hq a1 a2 a3 a4 => alone_of (s4 q hq a1 a2 a3 a4), adcs crickit (by decide +kernel)⟩

/-- So on these boards, every output gives what was asked for. -/
theorem C82_level_boards (b : Board) (hb : b ∈ boards) (h : Hw) (l : List Call) (hl : ∀ c ∈ l, Valid b c) :
    ∃ s, calls b l (init b h) = some s ∧ ∀ q < b.num, (l.foldl told start).out q = true → gets b s.hw q = some (level b (l.foldl told start) q) := by
  obtain ⟨h1, h2, _⟩ := C82_boards_partial.1 b hb
  obtain ⟨s, e, hs⟩ := C82_level b h1 h l hl
  exact ⟨s, e, fun q hq ho => hs q hq (h2 q hq) ho⟩

/-! ## The hypotheses can be met -/

/-- A chip with everything zero, and one with something everywhere. -/
def clear : Hw := ⟨fun _ => false, fun _ => false, fun _ => 0, fun _ _ => 0, fun _ _ => 0, 0⟩
def messy : Hw := ⟨fun g => g.bit % 2 == 0, fun _ => true, fun _ => 0x47, fun _ n => BitVec.ofNat 8 (n * 37 + 1), fun _ n => n * 100, 77⟩

/-- A motor on pins 4 and 5, a servo on pin 8, a switch on pin 12. -/
def demo : List Call := [.pullup 12, .read 12, .talkto 4 5, .setpower 0x3f000000, .on, .setleft, .talkto 8 8, .setpower 0x3d800000, .on, .read 12]

example : ∀ c ∈ demo, Valid crickit c := by simp [demo, Valid, isNanF, Board.num, crickit]
example : (level crickit (demo.foldl told start) 4, level crickit (demo.foldl told start) 5, level crickit (demo.foldl told start) 8) = (0, 32768, 4096) := by
  decide +kernel
example : (calls crickit demo (init crickit messy)).map (fun s => (gets crickit s.hw 4, gets crickit s.hw 5, gets crickit s.hw 8, drives s.hw ⟨.a, 4⟩)) =
    some (some 0, some 32768, some 4096, none) := by decide +kernel
/-- A lamp of the Xiao is connected the other way round, so what it is given is counted from the top: a quarter of the light. -/
example : (calls xiao [.talkto 11 11, .setpower 0x3e800000, .on] (init xiao messy)).map (fun s => (gets xiao s.hw 11, drives s.hw ⟨.a, 18⟩)) =
    some (some 16384, some 49151) := by decide +kernel
/-- The DAC. -/
example : (calls xiao [.talkto 0 0, .setpower 0x3e800000, .on] (init xiao messy)).map (fun s => gets xiao s.hw 0) = some (some 16384) := by decide +kernel

/-! ## Where it fails -/

/-- Pins 14 and 15 of the Crickit are the same pin of the chip: `talkto(15)` turns off pin 14, which is on. -/
theorem C82_violated_same_pin : ∃ l : List Call, (∀ c ∈ l, Valid crickit c) ∧ level crickit (l.foldl told start) 14 = 65535 ∧
    (calls crickit l (init crickit clear)).map (fun s => gets crickit s.hw 14) = some (some 0) :=
  ⟨[.talkto 14 14, .on, .talkto 15 15], by simp [Valid, Board.num, crickit], by decide +kernel, by decide +kernel⟩

/-- Pins 22 and 23 of the Crickit are given timer channels that do not exist, and have the signal of pins 20 and 21: at half power nothing, and what pin 20 has
once that is on. -/
theorem C82_violated_no_channel : ∃ l l' : List Call, (∀ c ∈ l ++ l', Valid crickit c) ∧ level crickit (l.foldl told start) 22 = 32768 ∧
    (calls crickit l (init crickit clear)).map (fun s => gets crickit s.hw 22) = some (some 0) ∧
    level crickit ((l ++ l').foldl told start) 22 = 32768 ∧
    (calls crickit (l ++ l') (init crickit clear)).map (fun s => (gets crickit s.hw 20, gets crickit s.hw 22)) = some (some 16384, some 16384) :=
  ⟨[.talkto 22 22, .setpower 0x3f000000, .on], [.talkto 20 20, .setpower 0x3e800000, .on], by simp [Valid, Board.num, crickit, isNanF], by decide +kernel,
    by decide +kernel, by decide +kernel, by decide +kernel⟩

/-- A motor that turns left, talked to again, has both pins high for a moment, after the first half of what `talkto` does. -/
theorem C82_violated_motor_talkto : ∃ l : List Call, (∀ c ∈ l, Valid crickit c) ∧
    (calls crickit l (init crickit clear)).map (fun s => (gets crickit s.hw 4, gets crickit s.hw 5)) = some (some 0, some 65535) ∧
    (calls crickit l (init crickit clear)).map (fun s => (gets crickit (enableOut crickit 4 s).hw 4, gets crickit (enableOut crickit 4 s).hw 5)) =
      some (some 65535, some 65535) :=
  ⟨[.talkto 4 5, .setleft, .on], by simp [Valid, Board.num, crickit], by decide +kernel, by decide +kernel⟩

/-- Pin 0 is the current pin before any `talkto`, but not an output: at full power it gives nothing, at half power it is driven. -/
theorem C82_violated_pin0 :
    (calls snekboard [.on] (init snekboard clear)).map (fun s => gets snekboard s.hw 0) = some none ∧
    (calls snekboard [.on, .setpower 0x3f000000] (init snekboard clear)).map (fun s => gets snekboard s.hw 0) = some (some 32768) := by
  constructor <;> decide +kernel

/-- The same after `read` of the current pin. -/
theorem C82_violated_after_read :
    (calls feather [.talkto 3 3, .on, .read 3, .on] (init feather clear)).map (fun s => gets feather s.hw 3) = some none ∧
    (calls feather [.talkto 3 3, .on, .read 3, .setpower 0x3f000000] (init feather clear)).map (fun s => gets feather s.hw 3) = some (some 32768) := by
  constructor <;> decide +kernel

/-- `setpower` of NaN converts it to a whole number: undefined. -/
theorem C82_violated_nan : powerWord 0x7fc00000 = none := by decide +kernel

end Snek.Pins
