import Verif.Proofs.Gpio
import Verif.Proofs.TimeFloat
import Verif.Props.C59
/-!
# C70: Pins

`drives` (Spec/Gpio) is what a pin does with these registers, by the data sheet; `level` what it should do after the commands `told`. A number
`v` is `f32val v` units of 2^-149.
-/
namespace Snek.Gpio
open Spec Spec.Gpio Snek.Time

/-! ## The power -/

/-- The key of a number, limited to 0 to 1. -/
def clampN (k : Int) : Nat := min k.toNat 0x3f800000

theorem pos_clamp (k : Int) : Pos (BitVec.ofNat 32 (clampN k)) (fmag (clampN k)) := by
  have : clampN k ≤ 0x3f800000 := Nat.min_le_right _ _
  have e : (BitVec.ofNat 32 (clampN k)).toNat = clampN k := by rw [BitVec.toNat_ofNat]; omega
  exact ⟨by rw [e]; omega, by rw [e]⟩

theorem fmag_one : fmag 0x3f800000 = 2 ^ 149 := by decide +kernel

theorem clamp_le (k : Int) : fmag (clampN k) ≤ 2 ^ 149 := by
  rw [← fmag_one]; exact fmag_mono (Nat.min_le_right _ _)

theorem pos255 : Pos 0x437f0000 (255 * 2 ^ 149) := ⟨by decide, by decide +kernel⟩

theorem half255_le (k : Int) : halfUp 255 (fmag (clampN k)) ≤ 255 := by
  have h := halfUp_mono (c := 255) (clamp_le k)
  have e : halfUp 255 (2 ^ 149) = 255 := by decide +kernel
  omega

/-- The byte for a number that needs no limiting. -/
theorem powerByte_in (k : Int) (u : BitVec 32) (hu : u = BitVec.ofNat 32 (clampN k)) :
    powerByte u = some (BitVec.ofNat 8 (halfUp 255 (fmag (clampN k)))) := by
  have hp := pos_clamp k
  rw [← hu] at hp
  have hle : clampN k ≤ 0x3f800000 := Nat.min_le_right _ _
  have hn : u.toNat = clampN k := by rw [hu, BitVec.toNat_ofNat]; omega
  have hk : fkey u = clampN k := by unfold fkey; rw [hn, if_pos (by omega)]
  have h1 : fltF u 0 = false := by
    unfold fltF
    rw [hk, decide_eq_false (by have : fkey 0 = 0 := rfl; omega)]; simp
  have h2 : fltF 0x3f800000 u = false := by
    unfold fltF
    rw [hk, decide_eq_false (by have : fkey 0x3f800000 = 0x3f800000 := rfl; omega)]; simp
  have hx : fmag (clampN k) * 255 ≤ (2 ^ 31 - 1000) * 2 ^ 149 := by
    rw [Nat.mul_comm]
    exact Nat.le_trans (Nat.mul_le_mul_left 255 (clamp_le k)) (Nat.mul_le_mul_right _ (by decide))
  obtain ⟨a1, a2, a3, _, _⟩ := half_up pos255 hp hx
  have hb := half255_le k
  unfold powerByte
  rw [h1]
  simp only [Bool.false_eq_true, if_false]
  rw [h2]
  simp only [Bool.false_eq_true, if_false]
  rw [a2, a3, if_pos]
  · rw [BitVec.ofInt_natCast]
  · exact ⟨rfl, by omega, by omega⟩

theorem fkey_inj {u : BitVec 32} (h : 0 ≤ fkey u) (hz : u ≠ 0x80000000) : u = BitVec.ofNat 32 (fkey u).toNat := by
  unfold fkey at *
  split at h
  · rename_i hlt; rw [if_pos hlt]; simp
  · rename_i hlt
    exfalso
    apply hz
    apply BitVec.eq_of_toNat_eq
    show u.toNat = 2147483648
    omega

theorem powerByte_eq (v : BitVec 32) (hn : isNanF v = false) : powerByte v = some (BitVec.ofNat 8 (halfUp 255 (fmag (clampN (fkey v))))) := by
  by_cases h0 : fkey v < 0
  · have e : clampN (fkey v) = clampN 0 := by unfold clampN; rw [Int.toNat_of_nonpos (by omega)]; rfl
    rw [e, ← powerByte_in 0 0 rfl]
    have h1 : fltF v 0 = true := by
      unfold fltF
      rw [hn, decide_eq_true (by have : fkey 0 = 0 := rfl; omega)]; rfl
    have h2 : fltF 0 0 = false := by decide
    unfold powerByte
    simp only [h1, h2, if_true]
    rfl
  · have h1 : fltF v 0 = false := by
      unfold fltF
      rw [decide_eq_false (by have : fkey 0 = 0 := rfl; omega)]; simp
    by_cases h3 : 0x3f800000 < fkey v
    · have e : clampN (fkey v) = clampN 0x3f800000 := by
        unfold clampN
        rw [Nat.min_eq_right (by omega)]; rfl
      rw [e, ← powerByte_in 0x3f800000 0x3f800000 rfl]
      have h2 : fltF 0x3f800000 v = true := by
        unfold fltF
        rw [hn, decide_eq_true (by have : fkey 0x3f800000 = 0x3f800000 := rfl; omega)]; rfl
      have h4 : fltF 0x3f800000 0 = false := by decide
      have h5 : fltF 0x3f800000 0x3f800000 = false := by decide
      unfold powerByte
      simp only [h1, h2, h4, h5, Bool.false_eq_true, if_false, if_true]
    · by_cases hz : v = 0x80000000
      · subst hz
        decide +kernel
      · refine powerByte_in (fkey v) v ?_
        have : clampN (fkey v) = (fkey v).toNat := Nat.min_eq_left (by omega)
        rw [this]
        exact fkey_inj (by omega) hz

theorem power_aux {x n U H : Nat} (hU : U = 2 * H) (hx : x ≤ 255 * U)
    (h1 : 16777215 * (16777215 * x + 16777216 * H) < 16777216 ^ 2 * (n * U + U))
    (h2 : 16777216 ^ 2 * (n * U) ≤ 16777217 * (16777217 * x + 16777216 * H)) :
    32768 * (n * U) ≤ 32768 * x + 16385 * U ∧ 32768 * x ≤ 32768 * (n * U) + 16385 * U := by
  generalize n * U = N at *
  omega

/-- `setpower(v)` for `v` from 0 to 1: 255 v to the nearest whole number (up to 1/32768 more than a half). -/
theorem C70_power (v : BitVec 32) (hf : FinNum v) (h0 : 0 ≤ f32val v) (h1 : f32val v ≤ 2 ^ 149) :
    ∃ b, powerByte v = some b ∧ 32768 * (b.toNat * 2 ^ 149 : Int) ≤ 32768 * (255 * f32val v) + 16385 * 2 ^ 149 ∧
      32768 * (255 * f32val v) ≤ 32768 * (b.toNat * 2 ^ 149 : Int) + 16385 * 2 ^ 149 := by
  have hn := (fin_flags hf).1
  have hv : f32val v = (fmag (clampN (fkey v)) : Int) := by
    have hm : ∀ m, Spec.f32mag m = fmag m := fun _ => rfl
    unfold f32val at h0 h1 ⊢
    unfold fkey clampN
    simp only [hm] at *
    split at h0
    · rename_i hlt
      rw [if_pos hlt] at h1
      rw [if_pos hlt, if_pos hlt, Int.toNat_natCast, Nat.min_eq_left]
      · apply Nat.le_of_not_lt
        intro hc
        have h2 : fmag 0x3f800001 ≤ fmag v.toNat := fmag_mono hc
        have h3 : (2:Nat) ^ 149 < fmag 0x3f800001 := by decide +kernel
        have h4 : ((2:Int) ^ 149) = ((2 ^ 149 : Nat) : Int) := by decide +kernel
        rw [h4] at h1
        have h1 := Int.ofNat_le.1 h1
        exact absurd (Nat.lt_of_lt_of_le h3 h2) (Nat.not_lt.2 h1)
    · rename_i hlt
      rw [if_neg hlt, if_neg hlt, Int.toNat_of_nonpos (by omega), Nat.min_eq_left (Nat.zero_le _)]
      have e : fmag 0 = 0 := by decide +kernel
      rw [e]
      omega
  refine ⟨_, powerByte_eq v hn, ?_⟩
  have hx : fmag (clampN (fkey v)) * 255 ≤ (2 ^ 31 - 1000) * 2 ^ 149 := by
    rw [Nat.mul_comm]
    exact Nat.le_trans (Nat.mul_le_mul_left 255 (clamp_le _)) (Nat.mul_le_mul_right _ (by decide))
  obtain ⟨_, _, _, a4, a5⟩ := half_up pos255 (pos_clamp (fkey v)) hx
  have hb := half255_le (fkey v)
  have hc := clamp_le (fkey v)
  rw [hv]
  rw [BitVec.toNat_ofNat, Nat.mod_eq_of_lt (show halfUp 255 (fmag (clampN (fkey v))) < 2 ^ 8 by omega)]
  rw [Nat.add_mul, Nat.one_mul] at a4
  have hU : (2:Nat) ^ 149 = 2 * 2 ^ 148 := by decide +kernel
  have r := power_aux hU (by rw [Nat.mul_comm]; exact Nat.mul_le_mul_left 255 hc) a4 a5
  have h4 : ((2:Int) ^ 149) = ((2 ^ 149 : Nat) : Int) := by decide +kernel
  rw [h4]
  clear hx a4 a5 hb hc hU hv h0 h1 h4
  generalize halfUp 255 (fmag (clampN (fkey v))) = n at *
  generalize fmag (clampN (fkey v)) = x at *
  generalize (2:Nat) ^ 149 = U at *
  rw [← Int.natCast_mul]
  generalize n * U = N at *
  omega

/-- Below 0 it is 0, above 1 (also infinite) it is full power. -/
theorem C70_power_limits (v : BitVec 32) : (fltF v 0 = true → powerByte v = some 0) ∧ (fltF 0x3f800000 v = true → powerByte v = some 255) := by
  constructor
  · intro h
    have hn : isNanF v = false := by unfold fltF at h; cases hh : isNanF v <;> simp_all
    have hk : fkey v < 0 := by unfold fltF at h; simp at h; have : fkey 0#32 = 0 := rfl; omega
    rw [powerByte_eq v hn]
    have e : clampN (fkey v) = 0 := by unfold clampN; rw [Int.toNat_of_nonpos (by omega)]; rfl
    rw [e]
    decide +kernel
  · intro h
    have hn : isNanF v = false := by unfold fltF at h; cases hh : isNanF v <;> simp_all
    have hk : 0x3f800000 < fkey v := by unfold fltF at h; simp at h; have : fkey 0x3f800000#32 = 0x3f800000 := rfl; omega
    rw [powerByte_eq v hn]
    have e : clampN (fkey v) = 0x3f800000 := by unfold clampN; rw [Nat.min_eq_right (by omega)]
    rw [e]
    decide +kernel

/-- More power is not less power. -/
theorem C70_power_mono (v w : BitVec 32) (hv : isNanF v = false) (hw : isNanF w = false) (h : fltF w v = false) :
    ∃ b c, powerByte v = some b ∧ powerByte w = some c ∧ b.toNat ≤ c.toNat := by
  refine ⟨_, _, powerByte_eq v hv, powerByte_eq w hw, ?_⟩
  have hk : fkey v ≤ fkey w := by unfold fltF at h; simp [hv, hw] at h; exact h
  have hm := halfUp_mono (c := 255) (fmag_mono (show clampN (fkey v) ≤ clampN (fkey w) by unfold clampN; omega))
  have b1 := half255_le (fkey v)
  have b2 := half255_le (fkey w)
  simp only [BitVec.toNat_ofNat]
  omega

/-! ## The pins -/

/-- Arguments: pins that exist, pin 19 not being talked to, powers that are numbers. -/
def Valid : Call → Prop
  | .talkto p d => p < 21 ∧ p ≠ 19 ∧ d < 21 ∧ d ≠ 19
  | .read p => p < 21
  | .setpower v => isNanF v = false
  | _ => True

theorem valid_ok {c : Call} (h : Valid c) : Ok c := by
  cases c with
  | talkto p d => exact ⟨⟨h.1, h.2.1⟩, h.2.2⟩
  | setpower v => exact ⟨_, powerByte_eq v h⟩
  | read p => exact h
  | _ => trivial

/-- After every sequence of calls, every pin that was talked to and never read drives what the last commands for it said; whatever happened to the
other pins. Missing: pins that are also read and pin 19, for which it is false. -/
theorem C70_level_partial (l : List Call) (hl : ∀ c ∈ l, Valid c) :
    ∃ s, calls l init = some s ∧ ∀ p d q, .talkto p d ∈ l → q = p ∨ q = d → .read q ∉ l → drives s.r q = some (level (l.foldl told start) q) := by
  obtain ⟨s, h1, h2, _, h4⟩ := calls_inv (R := fun q => .read q ∈ l) l init start (fun c h => valid_ok (hl c h)) (fun p h => h) (init_inv _)
  refine ⟨s, h1, fun p d q hm hq hr => ?_⟩
  have hv := hl _ hm
  have hq' : q < 21 ∧ q ≠ 19 := by
    rcases hq with rfl | rfl
    · exact ⟨hv.1, hv.2.1⟩
    · exact hv.2.2
  exact drives_of h2 hq'.1 hq'.2 hr (h4 p d q hm hq hr)

/-- `set_out` writes no direction register. -/
theorem setOut_ind {p : Nat} {s s' : St} {P : St → Prop} (h : setOut p s = some s')
    (hset : ∀ s g v, g ≠ .ddrd ∧ g ≠ .ddrb ∧ g ≠ .ddrc → P s → P (s.set g v)) (h0 : P s) : P s' := by
  have htcc : ∀ g, tccReg p = some g → g ≠ .ddrd ∧ g ≠ .ddrb ∧ g ≠ .ddrc := by
    intro g hg
    unfold tccReg at hg
    split at hg <;> simp at hg <;> subst hg <;> decide
  have hocr : ∀ g, ocrReg p = some g → g ≠ .ddrd ∧ g ≠ .ddrb ∧ g ≠ .ddrc := by
    intro g hg
    unfold ocrReg at hg
    split at hg <;> simp at hg <;> subst hg <;> decide
  have hprt : portReg p ≠ .ddrd ∧ portReg p ≠ .ddrb ∧ portReg p ≠ .ddrc := by
    unfold portReg; (repeat' split) <;> decide
  unfold setOut at h
  simp only [] at h
  generalize (if isOn s p = true then s.power p else 0) = v at h
  split at h
  · cases ht : tccReg p with
    | none => rw [ht] at h; simp at h
    | some t =>
      rw [ht] at h
      simp only [Option.bind_eq_bind, Option.bind_some] at h
      split at h
      · cases ho : ocrReg p with
        | none => rw [ho] at h; simp at h
        | some o =>
          rw [ho] at h
          simp only [Option.bind_some, Option.pure_def, Option.some.injEq] at h
          rw [← h]
          exact hset _ _ _ (htcc t ht) (hset _ _ _ (hocr o ho) h0)
      · simp only [Option.pure_def, Option.some.injEq] at h
        rw [← h]
        split <;> exact hset _ _ _ hprt (hset _ _ _ (htcc t ht) h0)
  · simp only [Option.pure_def, Option.some.injEq] at h
    rw [← h]
    split <;> exact hset _ _ _ hprt h0

/-- Nothing drives a pin that was never talked to. -/
theorem isOut_call {s s' : St} {c : Call} (hc : Valid c) (h : call c s = some s') (q : Nat) (ht : ∀ p d, c = .talkto p d → q ≠ p ∧ q ≠ d)
    (h0 : isOut s q = false) : isOut s' q = false := by
  have hpp : ∀ x y : Nat, (port x).1 ≠ (port y).2.1 := by
    intro x y
    have hx := port_cases x
    have hy := port_cases y
    rcases hx.2 with h | h | h <;> rcases hy.1 with h' | h' | h' <;> rw [h, h'] <;> decide
  have hset : ∀ {p : Nat} {s s' : St}, setOut p s = some s' → isOut s' q = isOut s q := by
    intro p s s' h
    have hreg : ∀ (s : St) g v, g ≠ (port q).1 → isOut (s.set g v) q = isOut s q := by
      intro s g v hg
      unfold isOut B
      rw [r_set, if_neg hg.symm]
    refine (setOut_ind (P := fun t => isOut t q = isOut s q) h (fun t g v hg ht => (hreg t g v ?_).trans ht) rfl)
    have := (port_cases q).2
    rcases this with e | e | e <;> rw [e]
    · exact hg.1
    · exact hg.2.1
    · exact hg.2.2
  have hstop : ∀ (n p : Nat) (s s' : St), stopFrom n p s = some s' → isOut s' q = isOut s q := by
    intro n
    induction n with
    | zero => intro p s s' h; cases h; rfl
    | succ n ih =>
      intro p s s' h
      unfold stopFrom at h
      cases hon : isOn s p with
      | false => rw [hon] at h; exact ih _ _ _ h
      | true =>
        rw [hon] at h
        simp only [if_true, Option.bind_eq_bind] at h
        cases h1 : setOut p (setOff p s) with
        | none => rw [h1] at h; simp at h
        | some s1 =>
          rw [h1] at h
          rw [ih _ _ _ h, hset h1]
          rfl
  cases c with
  | talkto p d =>
    obtain ⟨_, a2, _⟩ := dirOut_spec hc.1 s
    obtain ⟨_, b2, _⟩ := dirOut_spec hc.2.2.1 (setDirOut p s)
    obtain ⟨n1, n2⟩ := ht p d rfl
    cases h
    show isOut (setDirOut d (setDirOut p s)) q = false
    rw [b2, a2, h0, decide_eq_false n1, decide_eq_false n2]; rfl
  | setpower v =>
    simp only [call, Option.bind_eq_bind] at h
    cases hb : powerByte v with
    | none => rw [hb] at h; simp at h
    | some b => rw [hb] at h; exact (hset h).trans h0
  | setleft => exact (hset h).trans h0
  | setright => exact (hset h).trans h0
  | on => exact (hset h).trans h0
  | off => exact (hset h).trans h0
  | pullnone p => cases h; exact h0
  | pullup p => cases h; exact h0
  | read p =>
    cases h
    obtain ⟨_, a2, a3⟩ := dirIn_spec (show p < 21 from hc) s
    by_cases e : q = p
    · subst e; exact a2
    · exact (a3 q e).dir.trans h0
  | stopall => exact (hstop _ _ _ _ h).trans h0

/-- A pin that is never talked to drives nothing: it stays an input. -/
theorem C70_input (l : List Call) (hl : ∀ c ∈ l, Valid c) (q : Nat) (ht : ∀ p d, .talkto p d ∈ l → q ≠ p ∧ q ≠ d) :
    ∀ s, calls l init = some s → drives s.r q = none := by
  have gen : ∀ (l : List Call) (s s' : St), (∀ c ∈ l, Valid c) → (∀ p d, .talkto p d ∈ l → q ≠ p ∧ q ≠ d) → isOut s q = false →
      calls l s = some s' → isOut s' q = false := by
    intro l
    induction l with
    | nil => intro s s' _ _ h0 h; cases h; exact h0
    | cons c l ih =>
      intro s s' hl ht h0 h
      unfold calls at h
      cases hc : call c s with
      | none => rw [hc] at h; simp at h
      | some s1 =>
        rw [hc] at h
        exact ih s1 s' (fun c h => hl c (.tail _ h)) (fun p d h => ht p d (.tail _ h))
          (isOut_call (hl c (.head _)) hc q (fun p d e => ht p d (e ▸ .head _)) h0) h
  intro s h
  have h0 : isOut init q = false := by
    have hx := (port_cases q).2
    unfold isOut B
    rcases hx with h | h | h <;> rw [h] <;> exact BitVec.getLsbD_zero
  have := gen l init s hl ht h0 h
  unfold drives
  rw [if_neg (by show ¬ isOut s q = true; rw [this]; simp)]

/-- `read(p)` makes the pin an input, with the pull-up connected as `pullup` and `pullnone` said. -/
theorem C70_read (s : St) (p : Nat) (hp : p < 21) :
    ∃ s', call (.read p) s = some s' ∧ drives s'.r p = none ∧ (s'.r (port p).2.1).getLsbD (port p).2.2 = isPull s p := by
  refine ⟨_, rfl, ?_, ?_⟩
  · obtain ⟨_, a2, _⟩ := dirIn_spec hp s
    unfold drives
    rw [if_neg (by show ¬ isOut (setDirIn p s) p = true; rw [a2]; simp)]
  · unfold setDirIn
    exact (port_write hp _ (isPull (s.set (ddrReg p) (s.r (ddrReg p) &&& ~~~bit p)) p)).2.1

/-- `pullup(p)` and `pullnone(p)` concern just that pin, for `p` below 15. -/
theorem C70_pull (s : St) (p : Nat) (hp : p < 15) :
    (∃ s', call (.pullup p) s = some s' ∧ s'.r = s.r ∧ ∀ q, isPull s' q = (isPull s q || decide (q = p))) ∧
    ∃ s', call (.pullnone p) s = some s' ∧ s'.r = s.r ∧ ∀ q, isPull s' q = (isPull s q && !decide (q = p)) := by
  have e : pullMask p = 1#32 <<< p := by
    have : ∀ p < 15, pullMask p = 1#32 <<< p := by decide
    exact this p hp
  refine ⟨⟨_, rfl, rfl, fun q => ?_⟩, ⟨_, rfl, rfl, fun q => ?_⟩⟩
  · unfold isPull; rw [e]; exact or_bit _ _ _ (by omega)
  · unfold isPull; rw [e]; exact and_bit _ _ _ (by omega)

/-- The same quotient in other terms. -/
theorem rounded_scale {u : BitVec 32} {n : Int} {d k : Nat} (hk : 0 < k) (h : Rounded u (n * k) (d * k)) : Rounded u n d := by
  have e : ∀ x : Int, (x * (d * k : Nat) - n * k).natAbs = (x * d - n).natAbs * k := by
    intro x
    rw [Int.natCast_mul, ← Int.mul_assoc, ← Int.sub_mul, Int.natAbs_mul, Int.natAbs_natCast]
  have e2 : 2 * (n * k).natAbs = 2 * n.natAbs * k := by rw [Int.natAbs_mul, Int.natAbs_natCast, Nat.mul_assoc]
  obtain ⟨h1, h2⟩ := h
  rw [e2, ← Nat.mul_assoc] at h1 h2
  refine ⟨fun h => ?_, fun h => ?_⟩
  · obtain ⟨a, b⟩ := h1 (Nat.mul_lt_mul_of_pos_right h hk)
    refine ⟨a, fun v hv => ?_⟩
    obtain ⟨c, d'⟩ := b v hv
    rw [e, e] at c d'
    exact ⟨Nat.le_of_mul_le_mul_right c hk, fun hh => d' (by rw [hh])⟩
  · have := h2 (Nat.mul_le_mul_right k h)
    rw [this]
    by_cases hn : n < 0
    · rw [if_pos hn, if_pos (Int.mul_neg_of_neg_of_pos hn (by omega))]
    · rw [if_neg hn, if_neg (Int.not_lt.2 (Int.mul_nonneg (by omega) (by omega)))]

/-- A digital pin reads 0 or 1; the converter's `adc` of 1023 reads as the nearest number to their quotient. -/
theorem C70_read_value (s : St) (p adc : Nat) (pin : Bool) :
    (p < 14 ∨ isPull s p = true → readValue s p pin adc = if pin then 0x3f800000 else 0) ∧
    (14 ≤ p → isPull s p = false → adc ≤ 1023 → Rounded (readValue s p pin adc) (adc * 2 ^ 149) 1023) := by
  constructor
  · intro h
    unfold readValue
    rw [if_neg (by rintro ⟨h1, h2⟩; rcases h with h | h <;> first | omega | (rw [h] at h2; simp at h2))]
    cases pin <;> decide +kernel
  · intro h1 h2 h3
    unfold readValue
    rw [if_pos ⟨h1, by simp [h2]⟩]
    have d1 : Denotes (intToF adc) adc := intToF_denotes ⟨by omega, by omega⟩
    have d2 : Denotes (intToF 1023) 1023 := intToF_denotes ⟨by omega, by omega⟩
    have hz : fval (intToF 1023) ≠ 0 := by decide +kernel
    have h := fdiv_rounded (intToF adc) (intToF 1023) d1.1 d2.1 hz
    have hs : (f32val (intToF 1023)).sign = 1 ∧ (f32val (intToF 1023)).natAbs = 1023 * 2 ^ 149 := by decide +kernel
    rw [hs.1, hs.2, d1.2, Int.mul_one] at h
    refine rounded_scale (k := 2 ^ 149) (by decide +kernel) ?_
    rw [show (((2 ^ 149 : Nat)) : Int) = 2 ^ 149 by decide +kernel]
    exact h

/-! ## The hypotheses can be met -/

/-- A motor on pins 3 and 12, a lamp on pin 13, a switch on pin 8. -/
def demo : List Call := [.pullup 8, .read 8, .talkto 3 12, .setpower 0x3f000000, .on, .setleft, .talkto 13 13, .on, .read 8, .talkto 3 12, .setright]

example : ∀ c ∈ demo, Valid c := by simp [demo, Valid, isNanF]
example : level (demo.foldl told start) 3 = 128 ∧ level (demo.foldl told start) 12 = 0 ∧ level (demo.foldl told start) 13 = 255 := by decide +kernel
example : .talkto 3 12 ∈ demo ∧ .read 3 ∉ demo ∧ .read 12 ∉ demo := by simp [demo]
example : (calls demo init).map (fun s => (drives s.r 3, drives s.r 12, drives s.r 13, drives s.r 8)) = some (some 128, some 0, some 255, none) := by
  decide +kernel

/-! ## Where it fails -/

/-- A pin that was read with its pull-up and is then talked to is driven high although it is off. -/
theorem C70_violated_after_read : ∃ l : List Call, (∀ c ∈ l, Valid c) ∧ (∃ s, calls l init = some s ∧ drives s.r 8 = some 255) ∧
    level (l.foldl told start) 8 = 0 ∧ .on ∉ l ∧ .setleft ∉ l :=
  ⟨[.read 8, .talkto 8 8], by simp [Valid], ⟨_, rfl, by decide +kernel⟩, by decide +kernel, by simp, by simp⟩

/-- A pin that is on and is read stays an input: `on()` does not make it an output again. -/
theorem C70_violated_stays_input : ∃ l : List Call, (∀ c ∈ l, Valid c) ∧ (∃ s, calls l init = some s ∧ drives s.r 8 = none) ∧
    level (l.foldl told start) 8 = 255 :=
  ⟨[.talkto 8 8, .on, .read 8, .on], by simp [Valid], ⟨_, rfl, by decide +kernel⟩, by decide +kernel⟩

/-- `talkto(19); on()`: pin 19 is taken for one with a timer, and a table is read past its end. -/
theorem C70_violated_pin19 : calls [.talkto 19 19, .on] init = none := by
  have h : ((calls [.talkto 19 19, .on] init).map (fun _ => ())) = none := by decide +kernel
  exact Option.map_eq_none_iff.1 h

/-- `setpower` of NaN converts it to a whole number: undefined. -/
theorem C70_violated_nan : powerByte 0x7fc00000 = none := by decide +kernel

/-- `pullup(15)` concerns all pins from 15 on, and for pins from 16 on neither function has any effect. -/
theorem C70_violated_pull (s : St) :
    (∃ s', call (.pullup 15) s = some s' ∧ ∀ q, 15 ≤ q → q < 21 → isPull s' q = true) ∧
    (∃ s', call (.pullnone 15) s = some s' ∧ ∀ q, 15 ≤ q → q < 21 → isPull s' q = false) ∧
    ∀ p, 16 ≤ p → p < 21 → call (.pullup p) s = some s ∧ call (.pullnone p) s = some s := by
  have hm : ∀ q < 21, 15 ≤ q → (pullMask 15).getLsbD q = true ∧ (~~~ pullMask 15).getLsbD q = false := by decide
  have hz : ∀ p < 21, 16 ≤ p → pullMask p = 0 := by decide
  refine ⟨⟨_, rfl, fun q h1 h2 => ?_⟩, ⟨_, rfl, fun q h1 h2 => ?_⟩, fun p h1 h2 => ⟨?_, ?_⟩⟩
  · unfold isPull; rw [BitVec.getLsbD_or, (hm q h2 h1).1, Bool.or_true]
  · unfold isPull; rw [BitVec.getLsbD_and, (hm q h2 h1).2, Bool.and_false]
  · simp [call, hz p h2 h1]
  · have : ∀ x : BitVec 32, x &&& ~~~ 0#32 = x := by
      intro x
      rw [show ~~~ (0#32) = BitVec.allOnes 32 from rfl, BitVec.and_allOnes]
    simp only [call, hz p h2 h1]
    rw [show (0 : BitVec 32) = 0#32 from rfl, this]

/-- `setpower` writes a line to the console. -/
theorem C70_violated_output (s s' : St) (v : BitVec 32) (h : call (.setpower v) s = some s') : s'.lines = s.lines + 1 := by
  have hset : ∀ {p : Nat} {s s' : St}, setOut p s = some s' → s'.lines = s.lines := by
    intro p s s' h
    exact setOut_ind (P := fun t => t.lines = s.lines) h (fun _ _ _ _ ht => ht) rfl
  simp only [call, Option.bind_eq_bind] at h
  cases hb : powerByte v with
  | none => rw [hb] at h; simp at h
  | some b => rw [hb] at h; exact hset h

end Snek.Gpio
