import Verif.Spec.Narrow
/-!
# C105 Pins of the narrow 1284
-/
namespace Snek.Narrow
open Spec.Narrow

/-- The state after calls from a reset, and what the calls asked. -/
def run (cs : List Call) : St := cs.foldl step St.init
def asked (cs : List Call) : Asked := cs.foldl ask Asked.init

/-- The bit of the register at a pin's place. -/
def at' (f : Port → BitVec 8) (p : Nat) : Bool := (f (place p).1).getLsbD (place p).2

theorem ddrReg_place (p : Nat) (h : p < 32) : ddrReg p = (place p).1 := by
  have : ∀ p < 32, ddrReg p = (place p).1 := by decide
  exact this p h

theorem portReg_place (p : Nat) (h : p < 32) : portReg p = (place p).1 := by
  have : ∀ p < 32, portReg p = (place p).1 := by decide
  exact this p h

theorem place_inj {p q : Nat} (hp : p < 32) (hq : q < 32) (h1 : (place p).1 = (place q).1) (h2 : p % 8 = q % 8) : p = q := by
  have : ∀ p < 32, ∀ q < 32, (place p).1 = (place q).1 → p % 8 = q % 8 → p = q := by decide
  exact this p hp q hq h1 h2

theorem hasPwm_dims (p : Nat) (h : p < 32) : hasPwm p = dims p := by
  have : ∀ p < 32, hasPwm p = dims p := by decide +kernel
  exact this p h

theorem bit_get (p k : Nat) (hk : k < 8) : (bit p).getLsbD k = decide (k = p % 8) := by
  have : ∀ m < 8, ∀ k < 8, (1#8 <<< m).getLsbD k = decide (k = m) := by decide
  exact this (p % 8) (Nat.mod_lt _ (by decide)) k hk

theorem flag_get (p k : Nat) (hp : p < 32) (hk : k < 32) : (1#32 <<< p).getLsbD k = decide (k = p) := by
  have : ∀ p < 32, ∀ k < 32, (1#32 <<< p).getLsbD k = decide (k = p) := by decide +kernel
  exact this p hp k hk

/-- Setting or clearing the bit of a pin does that to its place and to no other pin's. -/
theorem at_put (f : Port → BitVec 8) (p q : Nat) (hp : p < 32) (hq : q < 32) (v : Bool) (g : Port) (hg : g = (place q).1) :
    at' (put f g (if v then f g ||| bit q else f g &&& ~~~ bit q)) p = if p = q then v else at' f p := by
  subst hg
  have hk : p % 8 < 8 := Nat.mod_lt _ (by decide)
  unfold at' put
  by_cases e : (place p).1 = (place q).1
  · rw [if_pos e, e]
    by_cases e2 : p = q
    · subst e2
      have hb : (bit p).getLsbD (place p).2 = true := by rw [show (place p).2 = p % 8 from rfl, bit_get p _ hk]; simp
      rw [if_pos rfl]
      cases v
      · simp only [Bool.false_eq_true, if_false, BitVec.getLsbD_and, BitVec.getLsbD_not, hb]; simp
      · simp only [if_true, BitVec.getLsbD_or, hb]; simp
    · have hne : p % 8 ≠ q % 8 := fun h => e2 (place_inj hp hq e h)
      have hb : (bit q).getLsbD (place p).2 = false := by rw [show (place p).2 = p % 8 from rfl, bit_get q _ hk]; simp [hne]
      have hk' : (place p).2 < 8 := hk
      rw [if_neg e2]
      cases v
      · simp only [Bool.false_eq_true, if_false, BitVec.getLsbD_and, BitVec.getLsbD_not, hb, hk', decide_true, Bool.not_false, Bool.and_true]
      · simp only [if_true, BitVec.getLsbD_or, hb, Bool.or_false]
  · rw [if_neg e, if_neg (fun h : p = q => e (congrArg (fun p => (place p).1) h))]

/-- The state is as asked, as far as the outputs and pin `q` are concerned. -/
structure Inv (q : Nat) (s : St) (a : Asked) : Prop where
  cur : a.cur < 32 ∧ s.powerPin = a.cur
  dir : a.dir < 32 ∧ s.dirPin = a.dir
  on : ∀ p, p < 32 → isOn s p = a.on p
  power : ∀ p, p < 32 → s.power p = a.power p
  ddr : at' s.ddr q = a.out q
  level : at' s.port q = a.level q
  tcc : s.tcc q = false
  full : dims q = true → a.power q = 0 ∨ a.power q = 255

/-- `setOut` brings the pin in agreement. -/
theorem setOut_inv {q p : Nat} (hq : q < 32) (hp : p < 32) {s : St} {a : Asked} (cur : a.cur < 32 ∧ s.powerPin = a.cur) (dir : a.dir < 32 ∧ s.dirPin = a.dir)
    (on : ∀ p, p < 32 → isOn s p = a.on p) (power : ∀ p, p < 32 → s.power p = a.power p) (ddr : at' s.ddr q = a.out q)
    (level : q ≠ p → at' s.port q = a.level q) (tcc : s.tcc q = false) (full : dims q = true → a.power q = 0 ∨ a.power q = 255) : Inv q (setOut p s) a := by
  have hv : (if isOn s p = true then s.power p else 0) = if a.on p = true then a.power p else 0 := by rw [on p hp, power p hp]
  have fin : ∀ t : Nat → Bool, t q = false → Inv q (setPort p ((if isOn s p = true then s.power p else 0) != 0) { s with tcc := t }) a := by
    intro t ht
    refine ⟨cur, dir, on, power, ddr, ?_, ht, full⟩
    refine (at_put s.port q p hq hp _ _ (portReg_place p hp)).trans ?_
    by_cases e : q = p
    · subst e
      rw [if_pos rfl, hv]
      unfold Asked.level
      cases a.on q
      · rfl
      · by_cases z : a.power q = 0#8
        · simp [z]
        · simp [bne, z]
    · rw [if_neg e]; exact level e
  unfold setOut
  simp only
  by_cases hw : hasPwm p = true
  · rw [if_pos hw]
    by_cases hb : 0 < (if isOn s p = true then s.power p else 0) ∧ (if isOn s p = true then s.power p else 0) < 255
    · rw [if_pos hb]
      rw [hv] at hb
      by_cases e : q = p
      · subst e
        rw [hasPwm_dims q hq] at hw
        exfalso
        rcases full hw with h | h <;> rw [h] at hb <;> cases ho : a.on q <;> rw [ho] at hb <;> revert hb <;> decide
      · exact ⟨cur, dir, on, power, ddr, level e, (if_neg e).trans tcc, full⟩
    · rw [if_neg hb]
      refine fin _ ?_
      unfold put
      split
      · rfl
      · exact tcc
  · rw [if_neg hw]
    exact fin s.tcc tcc

theorem isOn_setOn (s : St) (p k : Nat) (hp : p < 32) (hk : k < 32) : isOn (setOn p s) k = if k = p then true else isOn s k := by
  simp only [isOn, setOn, BitVec.getLsbD_or, flag_get p k hp hk]
  by_cases e : k = p <;> simp [e]

theorem isOn_setOff (s : St) (p k : Nat) (hp : p < 32) (hk : k < 32) : isOn (setOff p s) k = if k = p then false else isOn s k := by
  simp only [isOn, setOff, BitVec.getLsbD_and, BitVec.getLsbD_not, flag_get p k hp hk]
  by_cases e : k = p <;> simp [e, hk]

/-- Turning a pin on or off. -/
theorem switch_inv {q p : Nat} (hq : q < 32) (hp : p < 32) {s s' : St} {a : Asked} (v : Bool) (h : Inv q s a)
    (hs : s' = if v then setOn p s else setOff p s) : Inv q (setOut p s') { a with on := Spec.Narrow.set a.on p v } := by
  have ho : ∀ k, k < 32 → isOn s' k = Spec.Narrow.set a.on p v k := by
    intro k hk
    subst hs
    cases v
    · exact (isOn_setOff s p k hp hk).trans (by unfold Spec.Narrow.set; split; rfl; exact h.on k hk)
    · exact (isOn_setOn s p k hp hk).trans (by unfold Spec.Narrow.set; split; rfl; exact h.on k hk)
  have hl : q ≠ p → at' s.port q = Asked.level { a with on := Spec.Narrow.set a.on p v } q := by
    intro e
    rw [h.level]
    simp [Asked.level, Spec.Narrow.set, e]
  subst hs
  cases v
  · exact setOut_inv hq hp h.cur h.dir ho h.power h.ddr hl h.tcc h.full
  · exact setOut_inv hq hp h.cur h.dir ho h.power h.ddr hl h.tcc h.full

theorem Inv.congr {q : Nat} {s : St} {a b : Asked} (h : Inv q s a) (hc : b.cur = a.cur) (hd : b.dir = a.dir) (ho : ∀ p, p < 32 → b.on p = a.on p)
    (hp : b.power = a.power) (hu : b.out = a.out) (hq : q < 32) : Inv q s b := by
  refine ⟨hc ▸ h.cur, hd ▸ h.dir, fun p hp => (h.on p hp).trans (ho p hp).symm, hp ▸ h.power, hu ▸ h.ddr, ?_, h.tcc, hp ▸ h.full⟩
  rw [h.level]
  unfold Asked.level
  rw [ho q hq, hp]

theorem stopFrom_inv {q : Nat} (hq : q < 32) : ∀ (n p : Nat) (s : St) (a : Asked), p + n = 32 → Inv q s a →
    Inv q (stopFrom p n s) { a with on := fun k => if k < p then a.on k else false }
  | 0, p, s, a, hn, h => by
    refine Inv.congr h rfl rfl (fun k hk => ?_) rfl rfl hq
    show (if k < p then a.on k else false) = a.on k
    rw [if_pos (by omega)]
  | n + 1, p, s, a, hn, h => by
    have hp : p < 32 := by omega
    unfold stopFrom
    have key : Inv q (if isOn s p = true then setOut p (setOff p s) else s) { a with on := Spec.Narrow.set a.on p false } := by
      split
      · exact switch_inv hq hp false h rfl
      · rename_i ho
        refine Inv.congr h rfl rfl (fun k hk => ?_) rfl rfl hq
        show Spec.Narrow.set a.on p false k = a.on k
        unfold Spec.Narrow.set
        split
        · rename_i e
          subst e
          rw [← h.on k hk]
          exact (Bool.not_eq_true _ ▸ ho : isOn s k = false).symm
        · rfl
    refine Inv.congr (stopFrom_inv hq n (p + 1) _ _ (by omega) key) rfl rfl (fun k hk => ?_) rfl rfl hq
    show (if k < p then a.on k else false) = if k < p + 1 then Spec.Narrow.set a.on p false k else false
    unfold Spec.Narrow.set
    by_cases e : k = p
    · subst e; simp
    · by_cases l : k < p
      · rw [if_pos l, if_pos (by omega), if_neg e]
      · rw [if_neg l, if_neg (by omega)]

/-- Calls that keep pin `q` an output that is fully on or off. -/
def Plain (q : Nat) : Call → Prop
  | .read p => p ≠ q
  | .setpower v => dims q = true → v = 0 ∨ v = 255
  | _ => True

theorem step_inv {q : Nat} (hq : q < 32) {s : St} {a : Asked} (h : Inv q s a) (c : Call) (hok : ok c) (hc : Plain q c) : Inv q (step s c) (ask a c) := by
  obtain ⟨c1, c2⟩ := h.cur
  obtain ⟨d1, d2⟩ := h.dir
  cases c with
  | talkto p d =>
    obtain ⟨hp, hd⟩ := hok
    refine ⟨⟨hp, rfl⟩, ⟨hd, rfl⟩, h.on, h.power, ?_, h.level, h.tcc, h.full⟩
    show at' (put (put s.ddr (ddrReg p) (s.ddr (ddrReg p) ||| bit p)) (ddrReg d) _) q = _
    refine (at_put _ q d hq hd true _ (ddrReg_place d hd)).trans ?_
    rw [show at' (put s.ddr (ddrReg p) (s.ddr (ddrReg p) ||| bit p)) q = if q = p then true else at' s.ddr q from at_put s.ddr q p hq hp true _ (ddrReg_place p hp), h.ddr]
    rfl
  | setpower v =>
    simp only [step, ask, setpower]
    rw [c2]
    refine setOut_inv hq c1 (a := { a with power := Spec.Narrow.set a.power a.cur v }) ⟨c1, rfl⟩ ⟨d1, d2⟩ h.on (fun p hp => ?_) h.ddr (fun e => ?_) h.tcc (fun hd => ?_)
    · show (if p = a.cur then v else s.power p) = if p = a.cur then v else a.power p
      rw [h.power p hp]
    · show at' s.port q = _
      rw [h.level]
      simp [Asked.level, Spec.Narrow.set, e]
    · show (if q = a.cur then v else a.power q) = 0 ∨ (if q = a.cur then v else a.power q) = 255
      split
      · exact hc hd
      · exact h.full hd
  | on => simp only [step, ask]; rw [c2]; exact switch_inv hq c1 true h rfl
  | off => simp only [step, ask]; rw [c2]; exact switch_inv hq c1 false h rfl
  | setleft => simp only [step, ask]; rw [d2]; exact switch_inv hq d1 true h rfl
  | setright => simp only [step, ask]; rw [d2]; exact switch_inv hq d1 false h rfl
  | pullnone p => exact ⟨h.cur, h.dir, h.on, h.power, h.ddr, h.level, h.tcc, h.full⟩
  | pullup p => exact ⟨h.cur, h.dir, h.on, h.power, h.ddr, h.level, h.tcc, h.full⟩
  | read p =>
    have e : q ≠ p := fun e => hc e.symm
    refine ⟨h.cur, h.dir, h.on, h.power, ?_, ?_, h.tcc, h.full⟩
    · refine (at_put s.ddr q p hq hok false _ (ddrReg_place p hok)).trans ?_
      rw [h.ddr]
      show _ = if q = p then false else a.out q
      rfl
    · refine (at_put s.port q p hq hok (isPull s p) _ (portReg_place p hok)).trans ?_
      rw [if_neg e]
      exact h.level
  | stopall =>
    refine Inv.congr (stopFrom_inv hq 32 0 s a rfl h) rfl rfl (fun k _ => ?_) rfl rfl hq
    show false = if k < 0 then a.on k else false
    rw [if_neg (Nat.not_lt_zero _)]

/-- After any calls a pin that was never read is an output if it was talked to, and its output is high exactly if the last calls for it (`setleft`
and `setright` count for the second pin, `stopall` for all) left it on with some power; it is not left to a timer. Calls for other pins do
not change it. Missing: pins that can be dimmed with a power between none and full; pins read before, because false (`C105_violated_after_read`). -/
theorem C105_level_partial (cs : List Call) (q : Nat) (hq : q < 32) (hok : ∀ c ∈ cs, ok c) (hr : .read q ∉ cs)
    (hp : dims q = true → ∀ v, .setpower v ∈ cs → v = 0 ∨ v = 255) :
    at' (run cs).ddr q = (asked cs).out q ∧ at' (run cs).port q = (asked cs).level q ∧ (run cs).tcc q = false := by
  have key : ∀ (cs : List Call) (s : St) (a : Asked), (∀ c ∈ cs, ok c ∧ Plain q c) → Inv q s a → Inv q (cs.foldl step s) (cs.foldl ask a) := by
    intro cs
    induction cs with
    | nil => intro s a _ h; exact h
    | cons c cs ih =>
      intro s a hc h
      have := hc c (List.mem_cons_self ..)
      exact ih _ _ (fun c h => hc c (List.mem_cons_of_mem _ h)) (step_inv hq h c this.1 this.2)
  have pl : ∀ c ∈ cs, ok c ∧ Plain q c := by
    intro c hc
    refine ⟨hok c hc, ?_⟩
    cases c with
    | read p => exact fun e => hr (e ▸ hc)
    | setpower v => exact fun hd => hp hd v hc
    | _ => trivial
  have h := key cs St.init Asked.init pl ⟨⟨by decide, rfl⟩, ⟨by decide, rfl⟩, fun p _ => by simp [isOn, St.init, Asked.init], fun _ _ => rfl,
    by simp [at', St.init, Asked.init], by simp [at', St.init, Asked.init, Asked.level], rfl, fun _ => Or.inr rfl⟩
  exact ⟨h.ddr, h.level, h.tcc⟩

theorem one_get (p k : Nat) (hp : p < 15) (hk : k < 32) : (one p).getLsbD k = decide (k = p) := by
  have : ∀ p < 15, ∀ k < 32, (one p).getLsbD k = decide (k = p) := by decide +kernel
  exact this p hp k hk

/-- Pins 0 to 14: `pullup` and `pullnone` are for that pin only. At the start the digital pins are pulled up. Missing, because false: the
others (`C105_violated_pull15`, `C105_violated_pull16`). -/
theorem C105_pull_partial (s : St) (p k : Nat) (hp : p < 15) (hk : k < 32) :
    isPull (step s (.pullup p)) k = (isPull s k || decide (k = p)) ∧ isPull (step s (.pullnone p)) k = (isPull s k && !decide (k = p)) ∧
    isPull St.init k = decide (k < 24) := by
  have : ∀ k < 32, isPull St.init k = decide (k < 24) := by decide +kernel
  refine ⟨?_, ?_, this k hk⟩
  · simp only [step, isPull, BitVec.getLsbD_or, one_get p k hp hk]
  · simp only [step, isPull, BitVec.getLsbD_and, BitVec.getLsbD_not, one_get p k hp hk, hk, decide_true, Bool.true_and]

/-- `read` makes the pin an input, connected to the pull-up exactly if that was asked, and changes no other pin. -/
theorem C105_read (s : St) (p k : Nat) (hp : p < 32) (hk : k < 32) :
    at' (step s (.read p)).ddr k = (if k = p then false else at' s.ddr k) ∧ at' (step s (.read p)).port k = if k = p then isPull s p else at' s.port k :=
  ⟨at_put s.ddr k p hk hp false _ (ddrReg_place p hp), at_put s.port k p hk hp (isPull s p) _ (portReg_place p hp)⟩

/-- What `read` gives is taken from the pin: its bit for digital pins, its input of the converter for A0 to A7 without pull-up. Missing, because
false: A0 to A7 with pull-up (`C105_violated_read`). -/
theorem C105_source_partial (s : St) (p : Nat) (hp : p < 32) :
    (p < 24 → source s p = .digital (place p).1 (place p).2) ∧ (24 ≤ p → isPull s p = false → source s p = .analog (p - 24)) := by
  refine ⟨fun h => ?_, fun h hn => ?_⟩
  · have : ∀ p < 24, pinReg p = (place p).1 := by decide
    unfold source
    rw [if_neg (by omega), this p h]
    rfl
  · unfold source
    rw [hn, if_pos ⟨h, rfl⟩, Nat.mod_eq_of_lt (by omega)]

/-- The pins that can be dimmed are those with a timer. For four of them the bit set is in the register that connects the timer. Missing, because
false: the other four (`C105_violated_dim`). -/
theorem C105_dim_partial (p : Nat) (hp : p < 32) : (hasPwm p = (timer p).isSome) ∧
    (p = 3 ∨ p = 6 ∨ p = 13 ∨ p = 15 → tccReg p = (timer p).map fun t => (t, true)) ∧ (tccReg p).map (·.1) = timer p := by
  have : ∀ p < 32, (hasPwm p = (timer p).isSome) ∧ (p = 3 ∨ p = 6 ∨ p = 13 ∨ p = 15 → tccReg p = (timer p).map fun t => (t, true)) ∧
      (tccReg p).map (·.1) = timer p := by decide +kernel
  exact this p hp

/-- Pins 4, 7, 12 and 14 set a bit of register B instead; half power does not change their output either, so a pin that is off stays low. -/
theorem C105_violated_dim : (∀ p ∈ [4, 7, 12, 14], tccReg p = (timer p).map fun t => (t, false)) ∧
    at' (run [.talkto 4 4, .setpower 128, .on]).port 4 = false ∧ (asked [.talkto 4 4, .setpower 128, .on]).level 4 = true := by decide +kernel

theorem setOut_plain (s : St) (p : Nat) (hp : p < 32) (v : BitVec 8) (hv : (if isOn s p = true then s.power p else 0) = v) (h : v = 0 ∨ v = 255) :
    at' (setOut p s).port p = decide (v ≠ 0) ∧ (hasPwm p = true → (setOut p s).tcc p = false) := by
  have hb : ¬ (0 < v ∧ v < 255) := by rcases h with rfl | rfl <;> decide
  have hd : (v != 0) = decide (v ≠ 0) := by rcases h with rfl | rfl <;> decide
  have fin : ∀ t : Nat → Bool, at' (setPort p (v != 0) { s with tcc := t }).port p = decide (v ≠ 0) := by
    intro t
    refine (at_put s.port p p hp hp _ _ (portReg_place p hp)).trans ?_
    rw [if_pos rfl, hd]
  unfold setOut
  simp only
  rw [hv, if_neg hb]
  by_cases hw : hasPwm p = true
  · rw [if_pos hw]
    exact ⟨fin _, fun _ => if_pos rfl⟩
  · rw [if_neg hw]
    exact ⟨fin s.tcc, fun h => absurd h hw⟩

/-- Whatever went before (a power between, a read): `off` makes the pin's output low, and full power makes it high if it is on, without its timer. -/
theorem C105_full (s : St) (hp : s.powerPin < 32) :
    (at' (step s .off).port s.powerPin = false ∧ (dims s.powerPin = true → (step s .off).tcc s.powerPin = false)) ∧
    (isOn s s.powerPin = true → at' (step s (.setpower 255)).port s.powerPin = true ∧
      (dims s.powerPin = true → (step s (.setpower 255)).tcc s.powerPin = false)) := by
  rw [← hasPwm_dims _ hp]
  refine ⟨setOut_plain (setOff s.powerPin s) _ hp 0 ?_ (.inl rfl), fun ho => ?_⟩
  · rw [isOn_setOff s _ _ hp hp, if_pos rfl]; rfl
  · refine setOut_plain { s with power := put s.power s.powerPin 255 } _ hp 255 ?_ (.inr rfl)
    rw [show isOn { s with power := put s.power s.powerPin 255 } s.powerPin = true from ho, if_pos rfl]
    exact if_pos rfl

/-- A dimmed pin, then off. -/
example : (run [.talkto 3 3, .setpower 128, .on]).tcc 3 = true ∧ (run [.talkto 3 3, .setpower 128, .on, .off]).tcc 3 = false := by decide +kernel

/-- `pullnone(15)` takes the pull-ups from pins 16 to 23 too; `pullup(15)` gives one to A0. -/
theorem C105_violated_pull15 : isPull (run [.pullnone 15]) 16 = false ∧ isPull (run [.pullnone 15]) 23 = false ∧ isPull (run [.pullup 15]) 24 = true := by
  decide +kernel

/-- `pullup` and `pullnone` of pins 16 to 31 do nothing. -/
theorem C105_violated_pull16 (s : St) (p : Nat) (hp : 16 ≤ p) (hq : p < 32) : step s (.pullup p) = s ∧ step s (.pullnone p) = s := by
  have : ∀ p < 32, 16 ≤ p → one p = 0#32 := by decide +kernel
  simp only [step, this p hq hp, BitVec.or_zero]
  refine ⟨trivial, ?_⟩
  rw [show s.pullPins &&& ~~~ 0#32 = s.pullPins by rw [BitVec.not_zero, BitVec.and_allOnes]]

/-- `read` of an analog pin with pull-up looks at port C. -/
theorem C105_violated_read : source (run [.pullup 15, .read 24]) 24 = .digital .c 0 ∧ place 24 = (.a, 0) := by decide +kernel

/-- A pin that was read with its pull-up and is then talked to is driven high although it is off. -/
theorem C105_violated_after_read : at' (run [.read 8, .talkto 8 8]).ddr 8 = true ∧ at' (run [.read 8, .talkto 8 8]).port 8 = true ∧
    (asked [.read 8, .talkto 8 8]).level 8 = false := by decide +kernel

/-- A motor on pins 5 and 9, turned, with another pin read, and stopped; pin 3 at full power. -/
example : at' (run [.talkto 5 9, .setleft, .on, .read 2]).port 9 = true ∧ at' (run [.talkto 5 9, .setleft, .on, .read 2, .stopall]).port 9 = false ∧
    at' (run [.talkto 3 3, .setpower 255, .on]).port 3 = true := by decide +kernel

/-- The hypotheses are met. -/
example : at' (run [.talkto 5 3, .setpower 255, .setleft, .on, .read 2]).ddr 3 = true ∧ at' (run [.talkto 5 3, .setpower 255, .setleft, .on, .read 2]).port 3 = true ∧
    (run [.talkto 5 3, .setpower 255, .setleft, .on, .read 2]).tcc 3 = false :=
  C105_level_partial [.talkto 5 3, .setpower 255, .setleft, .on, .read 2] 3 (by decide) (by simp [ok]) (by simp) (by simp)

end Snek.Narrow
