import Verif.Spec.MetalGpio
/-!
# C104 Pins of the HiFive1
-/
namespace Snek.MetalGpio
open Spec.MetalGpio

/-- The state after calls from a reset, and what the calls asked. -/
def run (cs : List Call) : St := cs.foldl step St.init
def asked (cs : List Call) : Asked := cs.foldl ask Asked.init

theorem getPin_valid (p : Int) (h : valid p) : getPin p = some p.toNat := by
  obtain ⟨h1, h2, h3⟩ := h
  obtain ⟨n, rfl⟩ := Int.eq_ofNat_of_zero_le h1
  have hn : n < 22 := by omega
  have h14 : n ≠ 14 := by omega
  have : ∀ n : Fin 22, n.val ≠ 14 → getPin (n.val : Int) = some n.val := by decide
  simpa using this ⟨n, hn⟩ h14

theorem getPin_invalid (p : Int) (h : ¬ valid p) : getPin p = none := by
  unfold getPin
  by_cases h1 : p < 0
  · rw [if_pos (Or.inl h1)]
  · by_cases h2 : 22 ≤ p
    · rw [if_pos (Or.inr (Or.inl (show (pinMap.length : Int) ≤ p from h2)))]
    · have : p = 14 := by unfold valid at h; omega
      subst this; rfl

theorem line_inj {p q : Int} (hp : valid p) (hq : valid q) (ht : q ≠ twin p) (h : line p.toNat = line q.toNat) : p = q := by
  obtain ⟨a1, a2, a3⟩ := hp
  obtain ⟨b1, b2, b3⟩ := hq
  obtain ⟨n, rfl⟩ := Int.eq_ofNat_of_zero_le a1
  obtain ⟨m, rfl⟩ := Int.eq_ofNat_of_zero_le b1
  have key : ∀ n m : Fin 22, n.val ≠ 14 → m.val ≠ 14 → (m.val : Int) ≠ twin (n.val : Int) → line n.val = line m.val → n.val = m.val := by decide
  have := key ⟨n, by omega⟩ ⟨m, by omega⟩ (by simp; omega) (by simp; omega) ht h
  simp at this
  omega

theorem toNat_inj {p q : Int} (hp : valid p) (hq : valid q) : p.toNat = q.toNat ↔ p = q := by
  obtain ⟨h1, _⟩ := hp
  obtain ⟨h2, _⟩ := hq
  constructor <;> intro h <;> omega

/-- The state is as asked, as far as pin `p` is concerned. -/
structure Inv (p : Int) (s : St) (a : Asked) : Prop where
  cur : valid a.cur ∧ s.powerPin = a.cur.toNat
  other : a.cur ≠ twin p
  on : ∀ q, valid q → s.on q.toNat = a.on q
  power : ∀ q, valid q → s.power q.toNat = a.power q
  level : s.out (line p.toNat) = a.level p
  out : s.oe (line p.toNat) = a.out p

/-- `setOut` brings the line of a pin in agreement. -/
theorem setOut_level {s : St} {a : Asked} {p q : Int} (hp : valid p) (hq : valid q) (ht : q ≠ twin p) (hon : ∀ p, valid p → s.on p.toNat = a.on p)
    (hpow : ∀ p, valid p → s.power p.toNat = a.power p) (h : p ≠ q → s.out (line p.toNat) = a.level p) :
    (setOut q.toNat s).out (line p.toNat) = a.level p := by
  simp only [setOut, put]
  by_cases e : p = q
  · subst e
    rw [if_pos rfl, hon p hq, hpow p hq]
    unfold Asked.level
    cases a.on p
    · rfl
    · by_cases z : a.power p = 0 <;> simp [z]
  · rw [if_neg (fun h => e (line_inj hp hq ht h))]
    exact h e

theorem step_inv {p : Int} (hp : valid p) {s : St} {a : Asked} (h : Inv p s a) (c : Call) (hn : ¬ names (twin p) c) (hs : c ≠ .setpower none) :
    Inv p (step s c) (ask a c) := by
  obtain ⟨hc, hcur⟩ := h.cur
  have ht := h.other
  cases c with
  | talkto q d =>
    simp only [step, ask, talkto]
    have hq' : q ≠ twin p := fun e => hn (Or.inl e)
    have hd' : d ≠ twin p := fun e => hn (Or.inr e)
    by_cases hq : valid q
    · by_cases hd : valid d
      · rw [getPin_valid q hq, getPin_valid d hd, if_pos ⟨hq, hd⟩]
        have l1 := setOut_level (s := s) (a := a) hp hq hq' h.on h.power (fun _ => h.level)
        have l2 := setOut_level (s := setDir q.toNat true (setOut q.toNat s)) (a := a) hp hd hd' h.on h.power (fun _ => l1)
        refine ⟨⟨hq, rfl⟩, hq', h.on, h.power, l2, ?_⟩
        simp only [setDir, setOut, put, if_true, Spec.MetalGpio.set]
        by_cases e : p = d
        · subst e; simp
        · rw [if_neg (fun h => e (line_inj hp hd hd' h)), if_neg e]
          by_cases e' : p = q
          · subst e'; simp
          · rw [if_neg (fun h => e' (line_inj hp hq hq' h)), if_neg e']
            exact h.out
      · rw [getPin_valid q hq, getPin_invalid d hd, if_neg (fun h => hd h.2)]; exact h
    · rw [getPin_invalid q hq, if_neg (fun h => hq h.1)]; exact h
  | setpower v =>
    cases v with
    | none => exact absurd rfl hs
    | some v =>
      simp only [step, ask, setpower, Option.getD_some]
      rw [hcur]
      have hpow : ∀ q, valid q → (put s.power a.cur.toNat v) q.toNat = (Spec.MetalGpio.set a.power a.cur v) q := by
        intro q hv
        simp only [put, Spec.MetalGpio.set, toNat_inj hv hc]
        split
        · rfl
        · exact h.power q hv
      refine ⟨⟨hc, rfl⟩, ht, h.on, hpow, ?_, h.out⟩
      refine setOut_level (s := { s with power := put s.power a.cur.toNat v }) (a := { a with power := Spec.MetalGpio.set a.power a.cur v }) hp hc ht h.on hpow fun hne => ?_
      rw [show s.out (line p.toNat) = a.level p from h.level]
      simp [Asked.level, Spec.MetalGpio.set, hne]
  | on =>
    simp only [step, ask, turnOn]
    rw [hcur]
    have hon : ∀ q, valid q → (put s.on a.cur.toNat true) q.toNat = (Spec.MetalGpio.set a.on a.cur true) q := by
      intro q hv
      simp only [put, Spec.MetalGpio.set, toNat_inj hv hc]
      split
      · rfl
      · exact h.on q hv
    refine ⟨⟨hc, rfl⟩, ht, hon, h.power, ?_, h.out⟩
    refine setOut_level (s := { s with on := put s.on a.cur.toNat true }) (a := { a with on := Spec.MetalGpio.set a.on a.cur true }) hp hc ht hon h.power fun hne => ?_
    rw [show s.out (line p.toNat) = a.level p from h.level]
    simp [Asked.level, Spec.MetalGpio.set, hne]
  | off =>
    simp only [step, ask, turnOff]
    rw [hcur]
    have hon : ∀ q, valid q → (put s.on a.cur.toNat false) q.toNat = (Spec.MetalGpio.set a.on a.cur false) q := by
      intro q hv
      simp only [put, Spec.MetalGpio.set, toNat_inj hv hc]
      split
      · rfl
      · exact h.on q hv
    refine ⟨⟨hc, rfl⟩, ht, hon, h.power, ?_, h.out⟩
    refine setOut_level (s := { s with on := put s.on a.cur.toNat false }) (a := { a with on := Spec.MetalGpio.set a.on a.cur false }) hp hc ht hon h.power fun hne => ?_
    rw [show s.out (line p.toNat) = a.level p from h.level]
    simp [Asked.level, Spec.MetalGpio.set, hne]
  | setleft => exact h
  | setright => exact h
  | pull q => exact h
  | read q =>
    simp only [step, ask, read]
    have hq' : q ≠ twin p := hn
    by_cases hq : valid q
    · rw [getPin_valid q hq, if_pos hq]
      refine ⟨h.cur, ht, h.on, h.power, h.level, ?_⟩
      simp only [setDir, Bool.false_eq_true, if_false, put, Spec.MetalGpio.set]
      by_cases e : p = q
      · subst e; simp
      · rw [if_neg e, if_neg (fun h => e (line_inj hp hq hq' h))]
        exact h.out
    · rw [getPin_invalid q hq, if_neg hq]; exact h
  | stopall => exact h

theorem run_inv {p : Int} (hp : valid p) (cs : List Call) (hn : ∀ c ∈ cs, ¬ names (twin p) c) (hs : Call.setpower none ∉ cs) :
    Inv p (run cs) (asked cs) := by
  have key : ∀ (cs : List Call) (s : St) (a : Asked), (∀ c ∈ cs, ¬ names (twin p) c) → Call.setpower none ∉ cs → Inv p s a →
      Inv p (cs.foldl step s) (cs.foldl ask a) := by
    intro cs
    induction cs with
    | nil => intro s a _ _ h; exact h
    | cons c cs ih =>
      intro s a hn hs h
      exact ih _ _ (fun c hc => hn c (List.mem_cons_of_mem _ hc)) (fun hc => hs (List.mem_cons_of_mem _ hc))
        (step_inv hp h c (hn c (List.mem_cons_self ..)) (fun e => hs (e ▸ List.mem_cons_self ..)))
  refine key cs _ _ hn hs ⟨⟨by decide, rfl⟩, ?_, fun _ _ => rfl, fun _ _ => rfl, rfl, rfl⟩
  show (0 : Int) ≠ twin p
  unfold twin
  repeat' split
  all_goals decide

/-- After any calls a pin that was talked to and not read since is an output, high exactly if the last calls for it left it on with some power;
calls for other pins do not change it. A pin never talked to, or read since, is not driven. Missing, because false: pins 18 to 21 if both names
of one place are used (`C104_violated_alias`), `setpower` of something that is not a number (`C104_violated_setpower`). -/
theorem C104_pins_partial (cs : List Call) (p : Int) (hp : valid p) (hn : ∀ c ∈ cs, ¬ names (twin p) c) (hs : Call.setpower none ∉ cs) :
    (run cs).oe (line p.toNat) = (asked cs).out p ∧ (run cs).out (line p.toNat) = (asked cs).level p :=
  have h := run_inv hp cs hn hs
  ⟨h.out, h.level⟩

/-- Reading makes the pin an input; talking to it ends that. -/
theorem C104_direction (s : St) (p : Int) (hp : valid p) :
    ((step s (.read p)).ie (line p.toNat) = true ∧ (step s (.read p)).oe (line p.toNat) = false) ∧
    (step s (.talkto p p)).ie (line p.toNat) = false ∧ (step s (.talkto p p)).oe (line p.toNat) = true := by
  simp [step, read, talkto, getPin_valid p hp, setDir, setOut, put]

/-- A number that is not a pin is refused and changes nothing. -/
theorem C104_refused (s : St) (p d : Int) (h : ¬ valid p ∨ ¬ valid d) : step s (.talkto p d) = s ∧ (p = d → step s (.read p) = s) := by
  have hr : p = d → step s (.read p) = s := by
    rintro rfl
    simp only [step, read, getPin_invalid p (h.elim id id)]
  refine ⟨?_, hr⟩
  simp only [step, talkto]
  rcases h with h | h
  · rw [getPin_invalid p h]
  · rw [getPin_invalid d h]
    cases getPin p <;> rfl

/-- `stopall` stops nothing. -/
theorem C104_violated_stopall : (run [.talkto 3 3, .on, .stopall]).oe (line 3) = true ∧ (run [.talkto 3 3, .on, .stopall]).out (line 3) = true := by decide

/-- Pins 18 and 20 are one line with two switches: it is turned off while one of them is on. -/
theorem C104_violated_alias : (run [.talkto 18 18, .on, .talkto 20 20]).on 18 = true ∧ (run [.talkto 18 18, .on, .talkto 20 20]).out (line 18) = false := by decide

/-- `setpower` of a string raises an error and turns the pin off. -/
theorem C104_violated_setpower : (run [.talkto 3 3, .on]).out (line 3) = true ∧ (run [.talkto 3 3, .on, .setpower none]).out (line 3) = false := by decide

/-- `setleft` and `setright` do nothing: the second pin of a motor never changes. -/
theorem C104_violated_direction : (run [.talkto 3 4, .setleft, .on]).out (line 4) = (run [.talkto 3 4, .setright, .on]).out (line 4) := by decide

/-- Two pins, one dimmed to nothing, one on, one read. -/
example : let s := run [.talkto 3 3, .on, .talkto 5 5, .on, .setpower (some 0), .talkto 6 6, .read 6]
    s.out (line 3) = true ∧ s.out (line 5) = false ∧ s.oe (line 5) = true ∧ s.oe (line 6) = false := by decide

/-- The hypotheses are met by pin 18, used by that name, with others. -/
example : (run [.talkto 18 18, .on, .talkto 5 6, .on, .setpower (some 0)]).oe (line 18) = true ∧
    (run [.talkto 18 18, .on, .talkto 5 6, .on, .setpower (some 0)]).out (line 18) = true :=
  C104_pins_partial [.talkto 18 18, .on, .talkto 5 6, .on, .setpower (some 0)] 18 (by decide) (by simp [names, twin]) (by simp)

end Snek.MetalGpio
