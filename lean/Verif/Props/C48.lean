import Verif.Model.Flash
import Verif.Spec.Eeprom
/-!
# C48: programs saved in flash
-/
namespace Snek.Flash
open Spec.Eeprom

/-- The first page that is neither written nor erased after `r` bytes of page `q`. -/
def rowEnd (q r : Nat) : Nat := if r = 0 ∧ q % 4 = 0 then q else 4 * (q / 4) + 4

/-- The device is as after writing the first `P * q + r` bytes of `t`, `r < P` (`orig` is what it held before). -/
structure Inv (P base : Nat) (orig : Nat → UInt8) (t : List UInt8) (q r : Nat) (s : St) : Prop where
  off : s.off = P * q + (r - r % 2)
  pending : s.pending = decide (r % 2 = 1)
  byte : r % 2 = 1 → s.byte = t.getD (P * q + (r - 1)) 0xff
  below : ∀ a, a < base → s.mem a = orig a
  full : ∀ j, j < P * q → s.mem (base + j) = t.getD j 0xff
  row : ∀ j, P * q ≤ j → j < P * rowEnd q r → s.mem (base + j) = 0xff
  above : ∀ j, P * rowEnd q r ≤ j → s.mem (base + j) = orig (base + j)
  pbuf : r ≠ 0 → ∀ i, i < P → s.pbuf i = if i < r - r % 2 then t.getD (P * q + i) 0xff else 0xff

theorem and_ff (x : UInt8) : x &&& 0xff = x := by
  apply UInt8.eq_of_toBitVec_eq
  show x.toBitVec &&& BitVec.allOnes 8 = _
  exact BitVec.and_allOnes
theorem ff_and (x : UInt8) : 0xff &&& x = x := by rw [UInt8.and_comm, and_ff]

section
variable {P base : Nat} (hP : 0 < P) (hb : base % (4 * P) = 0) {orig : Nat → UInt8} {t : List UInt8}
include hP hb

/-- The page of an address of the region. -/
theorem page_eq (j q : Nat) : (base + j) / P = (base + P * q) / P ↔ P * q ≤ j ∧ j < P * q + P := by
  have e := Nat.div_add_mod base (4 * P)
  rw [hb, Nat.add_zero, Nat.mul_comm 4, Nat.mul_assoc] at e
  rw [← e, Nat.mul_add_div hP, Nat.mul_add_div hP, Nat.mul_div_cancel_left _ hP]
  constructor
  · intro h
    have h1 : j / P = q := by omega
    have h2 := Nat.div_add_mod j P
    have h3 := Nat.mod_lt j hP
    rw [h1] at h2; omega
  · rintro ⟨h1, h2⟩
    have : j / P = q := by
      rw [Nat.div_eq_iff hP, Nat.mul_comm q]; omega
    omega

omit hP in
theorem page_mod (q i : Nat) (h : i < P) : (base + (P * q + i)) % P = i := by
  have e := Nat.div_add_mod base (4 * P)
  rw [hb, Nat.add_zero, Nat.mul_comm 4, Nat.mul_assoc] at e
  rw [← e, Nat.mul_add_mod, Nat.mul_add_mod, Nat.mod_eq_of_lt h]

theorem row_mod (q : Nat) : (base + P * q) % (4 * P) = 0 ↔ q % 4 = 0 := by
  have e := Nat.div_add_mod base (4 * P)
  rw [hb, Nat.add_zero] at e
  rw [← e, Nat.mul_add_mod, Nat.mul_comm 4, Nat.mul_mod_mul_left]
  constructor
  · intro h; rcases Nat.mul_eq_zero.1 h with h | h <;> omega
  · intro h; rw [h, Nat.mul_zero]

theorem row_eq (j q : Nat) (hq : q % 4 = 0) : (base + j) / (4 * P) = (base + P * q) / (4 * P) ↔ P * q ≤ j ∧ j < P * (q + 4) := by
  obtain ⟨c, rfl⟩ := Nat.dvd_of_mod_eq_zero hq
  have e := Nat.div_add_mod base (4 * P)
  rw [hb, Nat.add_zero] at e
  have hP4 : 0 < 4 * P := by omega
  rw [← e, Nat.mul_add_div hP4, Nat.mul_add_div hP4, show P * (4 * c) = 4 * P * c by ac_rfl, Nat.mul_div_cancel_left _ hP4,
    Nat.mul_add, show P * (4 * c) = 4 * P * c by ac_rfl]
  constructor
  · intro h
    have h1 : j / (4 * P) = c := by omega
    have h2 := Nat.div_add_mod j (4 * P)
    have h3 := Nat.mod_lt j hP4
    rw [h1] at h2; omega
  · rintro ⟨h1, h2⟩
    have : j / (4 * P) = c := by
      rw [Nat.div_eq_iff hP4, Nat.mul_comm c]; omega
    omega

omit hP hb in
/-- Programming with a cleared page buffer changes nothing. -/
theorem finish_clear (dst : Nat) (s : St) (h : ∀ i, s.pbuf i = 0xff) : (finishPage P dst s).mem = s.mem := by
  funext a
  show (if _ then _ else _) = _
  split
  · rw [h, and_ff]
  · rfl

/-- Starting a page: it and the rest of its row are erased, the buffer is clear. -/
theorem start_spec (q : Nat) (s : St) : ∀ s', s' = startPage P (base + P * q) s →
    (∀ i, s'.pbuf i = 0xff) ∧ s'.off = s.off ∧ s'.byte = s.byte ∧ s'.pending = s.pending ∧ (∀ a, a < base → s'.mem a = s.mem a) ∧
    (∀ j, s'.mem (base + j) = if q % 4 = 0 ∧ P * q ≤ j ∧ j < P * (q + 4) then 0xff else s.mem (base + j)) := by
  rintro s' rfl
  unfold startPage
  by_cases hq : q % 4 = 0
  · simp only [row_mod hP hb, hq, if_true]
    split
    · rename_i hr
      refine ⟨fun _ => rfl, rfl, rfl, rfl, fun _ _ => rfl, fun j => ?_⟩
      show s.mem (base + j) = _
      split
      · rename_i hj
        unfold rowErased at hr
        rw [List.all_eq_true] at hr
        have := hr (j - P * q) (by rw [List.mem_range]; have := hj.2.2; rw [Nat.mul_add] at this; omega)
        rw [show base + P * q + (j - P * q) = base + j by omega] at this
        simpa using this
      · rfl
    · refine ⟨fun _ => rfl, rfl, rfl, rfl, fun a ha => ?_, fun j => ?_⟩
      · show (if _ then _ else _) = _
        rw [if_neg]
        intro h
        have h1 : a / (4 * P) < base / (4 * P) := by
          have e := Nat.div_add_mod base (4 * P)
          rw [hb, Nat.add_zero] at e
          rw [Nat.div_lt_iff_lt_mul (by omega), Nat.mul_comm, e]; exact ha
        have h2 : base / (4 * P) ≤ (base + P * q) / (4 * P) := Nat.div_le_div_right (by omega)
        omega
      · show (if _ then _ else _) = _
        simp only [row_eq hP hb j q hq, true_and]
  · simp only [row_mod hP hb, hq, if_false, false_and]
    exact ⟨fun _ => rfl, rfl, rfl, rfl, fun _ _ => rfl, fun _ => rfl⟩

/-- Programming page `q`. -/
theorem finish_spec (q : Nat) (s : St) : (∀ a, a < base → (finishPage P (base + P * q) s).mem a = s.mem a) ∧
    ∀ j, (finishPage P (base + P * q) s).mem (base + j) = if P * q ≤ j ∧ j < P * q + P then s.mem (base + j) &&& s.pbuf (j - P * q) else s.mem (base + j) := by
  refine ⟨fun a ha => ?_, fun j => ?_⟩
  · show (if _ then _ else _) = _
    rw [if_neg]
    intro h
    have e := Nat.div_add_mod base (4 * P)
    rw [hb, Nat.add_zero, Nat.mul_comm 4, Nat.mul_assoc] at e
    have h1 : a / P < base / P := by
      rw [← e, Nat.mul_div_cancel_left _ hP, Nat.div_lt_iff_lt_mul hP, Nat.mul_comm, e]; exact ha
    have h2 : base / P ≤ (base + P * q) / P := Nat.div_le_div_right (by omega)
    omega
  · show (if _ then _ else _) = _
    simp only [page_eq hP hb j q]
    split
    · rename_i hj
      have := page_mod hb q (j - P * q) (by omega)
      rw [show P * q + (j - P * q) = j by omega] at this
      rw [this]
    · rfl

omit hP hb in
theorem le_rowEnd (q r : Nat) : q ≤ rowEnd q r ∧ (r ≠ 0 → q < rowEnd q r) := by unfold rowEnd; split <;> omega

/-- One byte. -/
theorem step_inv (hP2 : P % 2 = 0) (q r : Nat) (hr : r < P) (s : St) (h : Inv P base orig t q r s) :
    (r + 1 < P → Inv P base orig t q (r + 1) (writeByte P base (t.getD (P * q + r) 0xff) s)) ∧
    (r + 1 = P → Inv P base orig t (q + 1) 0 (writeByte P base (t.getD (P * q + r) 0xff) s)) := by
  have e1 : s.off % P = 0 ↔ r < 2 := by
    rw [h.off, Nat.mul_add_mod, Nat.mod_eq_of_lt (by omega)]; omega
  -- the state after the check for the start of a page
  obtain ⟨s1, hs1, i1⟩ : ∃ s1, s1 = (if s.off % P = 0 then startPage P (base + s.off) s else s) ∧
      s1.off = s.off ∧ s1.byte = s.byte ∧ s1.pending = s.pending ∧ (∀ a, a < base → s1.mem a = orig a) ∧
      (∀ j, j < P * q → s1.mem (base + j) = t.getD j 0xff) ∧ (∀ j, P * q ≤ j → j < P * rowEnd q 1 → s1.mem (base + j) = 0xff) ∧
      (∀ j, P * rowEnd q 1 ≤ j → s1.mem (base + j) = orig (base + j)) ∧
      (∀ i, i < P → s1.pbuf i = if i < r - r % 2 then t.getD (P * q + i) 0xff else 0xff) ∧ (r < 2 → ∀ i, s1.pbuf i = 0xff) := by
    refine ⟨_, rfl, ?_⟩
    by_cases hr2 : r < 2
    · rw [if_pos (e1.2 hr2)]
      have eo : s.off = P * q := by rw [h.off]; omega
      obtain ⟨p1, p2, p3, p4, p5, p6⟩ := start_spec hP hb q s _ rfl
      rw [eo]
      refine ⟨p2.trans eo, p3, p4, fun a ha => (p5 a ha).trans (h.below a ha), ?_, ?_, ?_, ?_, fun _ => p1⟩
      · intro j hj
        rw [p6, if_neg (by omega)]
        exact h.full j hj
      · intro j hj1 hj2
        rw [p6]
        split
        · rfl
        · rename_i hn
          by_cases hq : q % 4 = 0
          · exfalso
            unfold rowEnd at hj2
            rw [if_neg (by omega), show 4 * (q / 4) + 4 = q + 4 by omega] at hj2
            exact hn ⟨hq, hj1, hj2⟩
          · refine h.row j hj1 ?_
            unfold rowEnd at hj2 ⊢
            rw [if_neg (by omega)] at hj2
            rw [if_neg (by omega)]
            exact hj2
      · intro j hj
        unfold rowEnd at hj
        rw [if_neg (by omega)] at hj
        rw [p6, if_neg]
        · refine h.above j (Nat.le_trans (Nat.mul_le_mul_left _ ?_) hj)
          unfold rowEnd; split <;> omega
        · rintro ⟨hq, _, h2⟩
          rw [show 4 * (q / 4) + 4 = q + 4 by omega] at hj
          omega
      · intro i _
        rw [p1, if_neg (by omega)]
    · rw [if_neg (fun x => hr2 (e1.1 x))]
      have er : rowEnd q 1 = rowEnd q r := by unfold rowEnd; rw [if_neg (by omega), if_neg (by omega)]
      rw [er]
      exact ⟨rfl, rfl, rfl, h.below, h.full, h.row, h.above, h.pbuf (by omega), fun x => absurd x hr2⟩
  obtain ⟨o1, b1, n1, below, full, row, above, pbuf, clear⟩ := i1
  have hrow : ∀ r', r' ≠ 0 → rowEnd q r' = rowEnd q 1 := fun r' h => by unfold rowEnd; rw [if_neg (by omega), if_neg (by omega)]
  unfold writeByte
  simp only [← hs1]
  rcases Nat.mod_two_eq_zero_or_one r with hev | hodd
  · -- the low byte waits
    have hr1 : r + 1 < P := by omega
    refine ⟨fun _ => ?_, fun x => by omega⟩
    have hc : ¬ (s1.pending = true) := by rw [n1, h.pending, hev]; decide
    rw [if_neg hc]
    have hI : Inv P base orig t q (r + 1) { s1 with byte := t.getD (P * q + r) 0xff, pending := true } := by
      refine ⟨?_, ?_, ?_, below, full, ?_, ?_, ?_⟩
      · show s1.off = _
        rw [o1, h.off]; omega
      · show true = _
        rw [decide_eq_true (by omega)]
      · intro _; rfl
      · rw [hrow _ (by omega)]; exact row
      · rw [hrow _ (by omega)]; exact above
      · intro _ i hi
        show s1.pbuf i = _
        rw [pbuf i hi, show r + 1 - (r + 1) % 2 = r - r % 2 by omega]
    split
    · rename_i h0
      have h0 : s1.off % P = 0 := h0
      rw [o1, e1] at h0
      have em := finish_clear (P := P) (base + s1.off - P) { s1 with byte := t.getD (P * q + r) 0xff, pending := true } (clear h0)
      refine ⟨hI.off, hI.pending, hI.byte, ?_, ?_, ?_, ?_, hI.pbuf⟩
      · rw [em]; exact hI.below
      · rw [em]; exact hI.full
      · rw [em]; exact hI.row
      · rw [em]; exact hI.above
    · exact hI
  · -- the word goes to the page buffer
    have hc : s1.pending = true := by rw [n1, h.pending, hodd]; decide
    rw [if_pos hc, o1, h.off]
    have em : (base + (P * q + (r - r % 2))) % P = r - 1 := by rw [page_mod hb q _ (by omega)]; omega
    have hpb : ∀ i, i < P → (store16 P (base + (P * q + (r - r % 2))) s1.byte (t.getD (P * q + r) 0xff) s1).pbuf i =
        if i < r + 1 then t.getD (P * q + i) 0xff else 0xff := by
      intro i hi
      show (if i = _ then s1.byte else if i = _ + 1 then t.getD (P * q + r) 0xff else s1.pbuf i) = _
      rw [em]
      split
      · rename_i e; rw [if_pos (by omega), b1, h.byte hodd, e]
      · split
        · rename_i e; rw [if_pos (by omega), e, show r - 1 + 1 = r by omega]
        · rw [pbuf i hi]
          by_cases hlt : i < r + 1
          · rw [if_pos hlt, if_pos (by omega)]
          · rw [if_neg hlt, if_neg (by omega)]
    refine ⟨fun hr1 => ?_, fun hr1 => ?_⟩
    · have h0 : ¬ ((P * q + (r - r % 2) + 2) % P = 0) := by
        rw [Nat.add_assoc, Nat.mul_add_mod, Nat.mod_eq_of_lt (by omega)]; omega
      rw [if_neg h0]
      refine ⟨?_, ?_, fun x => by omega, below, full, ?_, ?_, ?_⟩
      · show P * q + (r - r % 2) + 2 = _
        omega
      · show false = _
        rw [decide_eq_false (by omega)]
      · rw [hrow _ (by omega)]; exact row
      · rw [hrow _ (by omega)]; exact above
      · intro _ i hi
        rw [show r + 1 - (r + 1) % 2 = r + 1 by omega]
        exact hpb i hi
    · have h0 : (P * q + (r - r % 2) + 2) % P = 0 := by
        rw [show P * q + (r - r % 2) + 2 = P * q + P by omega, Nat.mul_add_mod, Nat.mod_self]
      have ea : base + (P * q + (r - r % 2) + 2) - P = base + P * q := by omega
      rw [if_pos h0]
      show Inv P base orig t (q + 1) 0 (finishPage P (base + (P * q + (r - r % 2) + 2) - P) _)
      rw [ea]
      have hend := le_rowEnd q 1
      have hmul : P * q + P ≤ P * rowEnd q 1 := by
        have := Nat.mul_le_mul_left P (hend.2 (by decide))
        rw [Nat.succ_eq_add_one, Nat.mul_add] at this; omega
      have hrow' : rowEnd (q + 1) 0 = rowEnd q 1 := by
        unfold rowEnd; rw [if_neg (c := 1 = 0 ∧ q % 4 = 0) (by omega)]; split <;> omega
      obtain ⟨f1, f2⟩ := finish_spec hP hb q { store16 P (base + (P * q + (r - r % 2))) s1.byte (t.getD (P * q + r) 0xff) s1 with off := P * q + (r - r % 2) + 2, pending := false }
      refine ⟨?_, rfl, (fun x => by cases x), ?_, ?_, ?_, ?_, fun x => absurd rfl x⟩
      · show P * q + (r - r % 2) + 2 = P * (q + 1) + (0 - 0 % 2)
        rw [Nat.mul_add]; omega
      · intro a ha; exact (f1 a ha).trans (below a ha)
      · intro j hj
        rw [Nat.mul_add, Nat.mul_one] at hj
        rw [f2 j]
        split
        · rename_i hc
          show s1.mem (base + j) &&& (store16 P _ _ _ s1).pbuf (j - P * q) = _
          rw [row j hc.1 (by omega), ff_and, hpb _ (by omega), if_pos (by omega), show P * q + (j - P * q) = j by omega]
        · rename_i hc; exact full j (by omega)
      · intro j hj1 hj2
        rw [Nat.mul_add, Nat.mul_one] at hj1
        rw [f2 j, if_neg (by omega)]
        exact row j (by omega) (by rw [hrow'] at hj2; exact hj2)
      · intro j hj
        rw [hrow'] at hj
        rw [f2 j, if_neg (by omega)]
        exact above j hj

/-- The state after `n` bytes. -/
def At (P base : Nat) (orig : Nat → UInt8) (t : List UInt8) (n : Nat) (s : St) : Prop := Inv P base orig t (n / P) (n % P) s

theorem step_at (hP2 : P % 2 = 0) (n : Nat) (s : St) (h : At P base orig t n s) : At P base orig t (n + 1) (writeByte P base (t.getD n 0xff) s) := by
  have hr : n % P < P := Nat.mod_lt _ hP
  have e := Nat.div_add_mod n P
  obtain ⟨h1, h2⟩ := step_inv hP hb hP2 _ _ hr s h
  rw [e] at h1 h2
  unfold At
  by_cases hlt : n % P + 1 < P
  · have ed : (n + 1) / P = n / P := by
      rw [Nat.div_eq_iff hP]; rw [Nat.mul_comm] at e; omega
    have em : (n + 1) % P = n % P + 1 := by
      have e' := Nat.div_add_mod (n + 1) P
      rw [ed] at e'; omega
    rw [ed, em]; exact h1 hlt
  · have ex : n + 1 = P * (n / P + 1) := by rw [Nat.mul_add]; omega
    have ed : (n + 1) / P = n / P + 1 := by rw [ex, Nat.mul_div_cancel_left _ hP]
    have em : (n + 1) % P = 0 := by rw [ex, Nat.mul_mod_right]
    rw [ed, em]; exact h2 (by omega)

/-- `n` rounded up to a multiple of `R`. -/
def roundUp (R n : Nat) : Nat := (n + (R - 1)) / R * R

omit hb in
theorem rowEnd_eq (n : Nat) : P * rowEnd (n / P) (n % P) = roundUp (4 * P) n := by
  have e1 := Nat.div_add_mod n P
  have hr : n % P < P := Nat.mod_lt _ hP
  have e2 := Nat.div_add_mod (n / P) 4
  unfold roundUp
  have em : P * (n / P) = 4 * P * (n / P / 4) + P * (n / P % 4) := by
    conv => lhs; rw [← e2]
    rw [Nat.mul_add, ← Nat.mul_assoc, Nat.mul_comm P 4]
  have h3 : P * (n / P % 4) ≤ P * 3 := Nat.mul_le_mul_left _ (by omega)
  unfold rowEnd
  split
  · rename_i h
    rw [h.2, Nat.mul_zero, Nat.add_zero] at em
    have : (n + (4 * P - 1)) / (4 * P) = n / P / 4 := by
      rw [Nat.div_eq_iff (by omega), Nat.mul_comm (n / P / 4)]; omega
    rw [this, Nat.mul_comm (n / P / 4), ← em]
  · rename_i h
    have hpos : 1 ≤ n % P + P * (n / P % 4) := by
      by_cases h0 : n % P = 0
      · have : P * 1 ≤ P * (n / P % 4) := Nat.mul_le_mul_left _ (by omega)
        omega
      · omega
    have : (n + (4 * P - 1)) / (4 * P) = n / P / 4 + 1 := by
      rw [Nat.div_eq_iff (by omega), Nat.mul_comm (n / P / 4 + 1), Nat.mul_add, Nat.mul_one]; omega
    rw [this, Nat.mul_comm (n / P / 4 + 1), Nat.mul_comm 4 P, Nat.mul_assoc]
    congr 1

/-- What the flush leaves. -/
theorem flush_even (m : Nat) (hm : m % 2 = 0) (hP2 : P % 2 = 0) (ht : t.length ≤ m) (s : St) (h : At P base orig t m s) (s' : St)
    (hs' : s' = if s.off % P ≠ 0 then finishPage P (base + s.off / P * P) s else s) :
    (∀ a, a < base → s'.mem a = orig a) ∧
    ∀ j, s'.mem (base + j) = if j < roundUp (4 * P) m then t.getD j 0xff else orig (base + j) := by
  have e := Nat.div_add_mod m P
  have hr : m % P < P := Nat.mod_lt _ hP
  have hrm : m % P % 2 = 0 := by rw [Nat.mod_mod_of_dvd _ (Nat.dvd_of_mod_eq_zero hP2)]; exact hm
  have ho : s.off = m := by have := h.off; omega
  have hle := le_rowEnd (m / P) (m % P)
  have ht' : ∀ j, m ≤ j → t.getD j 0xff = 0xff := fun j hj => by simp [List.getD, List.getElem?_eq_none (show t.length ≤ j by omega)]
  have hle1 := Nat.mul_le_mul_left P hle.1
  rw [ho] at hs'
  split at hs'
  · rename_i h0
    have hle2 := Nat.mul_le_mul_left P (hle.2 h0)
    rw [Nat.succ_eq_add_one, Nat.mul_add] at hle2
    obtain ⟨f1, f2⟩ := finish_spec hP hb (m / P) s
    rw [Nat.mul_comm] at hs'
    rw [← hs'] at f1 f2
    refine ⟨fun a ha => (f1 a ha).trans (h.below a ha), fun j => ?_⟩
    rw [f2 j, ← rowEnd_eq hP m]
    split
    · rename_i hj
      rw [if_pos (by omega), h.row j hj.1 (by omega), ff_and, h.pbuf h0 _ (by omega)]
      split
      · congr 1; omega
      · rw [ht' j (by omega)]
    · rename_i hj
      split
      · by_cases hlt : j < P * (m / P)
        · exact h.full j hlt
        · rename_i hj2
          rw [h.row j (by omega) hj2, ht' j (by omega)]
      · exact h.above j (by omega)
  · rename_i h0
    have h0 : m % P = 0 := by omega
    rw [hs']
    refine ⟨h.below, fun j => ?_⟩
    rw [← rowEnd_eq hP m]
    split
    · by_cases hlt : j < P * (m / P)
      · exact h.full j hlt
      · rename_i hj2
        rw [h.row j (by omega) hj2, ht' j (by omega)]
    · exact h.above j (by omega)

theorem flush_spec (hP2 : P % 2 = 0) (n : Nat) (ht : t.length = n) (s : St) (h : At P base orig t n s) :
    (∀ a, a < base → (writeFlush P base s).mem a = orig a) ∧
    ∀ j, (writeFlush P base s).mem (base + j) = if j < roundUp (4 * P) n then t.getD j 0xff else orig (base + j) := by
  have hp : s.pending = decide (n % 2 = 1) := by
    rw [h.pending, Nat.mod_mod_of_dvd _ (Nat.dvd_of_mod_eq_zero hP2)]
  unfold writeFlush
  by_cases hn : n % 2 = 1
  · simp only [hp, hn, decide_true, if_true]
    have h' := step_at hP hb hP2 n s h
    rw [show t.getD n 0xff = 0xff by simp [List.getD, List.getElem?_eq_none (show t.length ≤ n by omega)]] at h'
    have hr : roundUp (4 * P) (n + 1) = roundUp (4 * P) n := by
      unfold roundUp
      have e := Nat.div_add_mod n (4 * P)
      have hlt : n % (4 * P) < 4 * P := Nat.mod_lt _ (by omega)
      have : n % (4 * P) % 2 = 1 := by rw [Nat.mod_mod_of_dvd _ ⟨2 * P, by omega⟩]; exact hn
      congr 1
      rw [show (n + (4 * P - 1)) / (4 * P) = n / (4 * P) + 1 by
        rw [Nat.div_eq_iff (by omega), Nat.mul_comm (n / (4 * P) + 1), Nat.mul_add, Nat.mul_one]; omega]
      rw [Nat.div_eq_iff (by omega), Nat.mul_comm (n / (4 * P) + 1), Nat.mul_add, Nat.mul_one]; omega
    rw [← hr]
    exact flush_even hP hb (n + 1) (by omega) hP2 (by omega) _ h' _ rfl
  · have hc : ¬ (s.pending = true) := by rw [hp]; simpa using hn
    simp only [if_neg hc]
    exact flush_even hP hb n (by omega) hP2 (by omega) _ h _ rfl

/-- The loop writes the text and its mark. -/
theorem loop_spec (hP2 : P % 2 = 0) (more : List UInt8) : ∀ (keys done : List UInt8) (s : St), Text (typed keys) →
    t = done ++ typed keys ++ [0xff] → At P base orig t done.length s →
    ∃ s', writeLoop P base (keys ++ 4 :: more) s = some (more, s') ∧ At P base orig t t.length s' := by
  intro keys
  induction keys with
  | nil =>
    intro done s _ ht h
    have h' := step_at hP hb hP2 _ s h
    have e : t = done ++ [0xff] := by rw [ht]; simp [typed]
    have ec : t.getD done.length 0xff = 0xff := by rw [e]; simp [List.getD]
    rw [ec] at h'
    refine ⟨writeByte P base 0xff s, ?_, ?_⟩
    · rw [List.nil_append, writeLoop, if_neg (by decide)]
      exact if_pos (by decide)
    · rw [show t.length = done.length + 1 by rw [e]; simp]; exact h'
  | cons k keys ih =>
    intro done s hx ht h
    rw [List.cons_append, writeLoop]
    by_cases h5 : k = 5
    · have e : typed (k :: keys) = typed keys := by simp [typed, h5]
      rw [if_pos h5]
      rw [e] at hx ht
      exact ih done s hx ht h
    · have e : typed (k :: keys) = (if k = 13 then 10 else k) :: typed keys := by simp [typed, h5]
      rw [e] at hx ht
      obtain ⟨h4, h255⟩ := hx _ (List.mem_cons_self)
      rw [if_neg h5]
      simp only [if_neg h4, if_neg h255]
      have h' := step_at hP hb hP2 _ s h
      have ec : t.getD done.length 0xff = if k = 13 then 10 else k := by rw [ht]; simp [List.getD]
      rw [ec] at h'
      refine ih (done ++ [if k = 13 then 10 else k]) _ (fun c hc => hx c (List.mem_cons_of_mem _ hc)) (by rw [ht]; simp) ?_
      rw [show (done ++ [if k = 13 then 10 else k]).length = done.length + 1 by simp]
      exact h'

omit hP hb in
theorem load_eq (t : List UInt8) (ht : ∀ c ∈ t, c ≠ 0xff) (size : Nat) (mem : Nat → UInt8) (hm : ∀ j, j ≤ t.length → mem (base + j) = t.getD j 0xff)
    (hs : t.length < size) (o : Nat) (ho : o ≤ t.length) : load base size mem o = t.drop o := by
  rw [load, dif_pos (by omega), hm o ho]
  by_cases hl : o < t.length
  · have e : t.getD o 0xff = t[o] := by simp [List.getD, List.getElem?_eq_getElem hl]
    rw [e, if_pos (ht _ (List.getElem_mem hl)), List.drop_eq_getElem_cons hl, load_eq t ht size mem hm hs (o + 1) (by omega)]
  · rw [if_neg, List.drop_eq_nil_of_le (by omega)]
    simp [List.getD, List.getElem?_eq_none (show t.length ≤ o by omega)]
termination_by t.length - o

omit hP hb in
theorem init_at (s : St) : At P base s.mem t 0 (writeInit s) := by
  unfold At
  rw [Nat.zero_div, Nat.zero_mod]
  refine ⟨rfl, rfl, (fun h => by cases h), fun _ _ => rfl, fun j hj => by omega, fun j _ h => ?_, fun _ _ => rfl, fun h => absurd rfl h⟩
  unfold rowEnd at h
  rw [if_pos ⟨rfl, rfl⟩] at h
  omega

/-- What saving a text does to memory, whatever memory, page buffer and the writer's variables held: from `base` on there is the text, then
ones up to the end of the last row used, and nothing else has changed. -/
theorem C48_memory (hP2 : P % 2 = 0) (keys more : List UInt8) (ht : Text (typed keys)) (s : St) :
    ∃ s', write P base (keys ++ 4 :: more) s = some (more, s') ∧ (∀ a, a < base → s'.mem a = s.mem a) ∧
      ∀ j, s'.mem (base + j) = if j < roundUp (4 * P) ((typed keys).length + 1) then (typed keys).getD j 0xff else s.mem (base + j) := by
  obtain ⟨s1, h1, h2⟩ := loop_spec (t := typed keys ++ [0xff]) hP hb hP2 more keys [] (writeInit s) ht (by simp) (init_at s)
  obtain ⟨f1, f2⟩ := flush_spec hP hb hP2 _ rfl s1 h2
  refine ⟨writeFlush P base s1, by unfold write; rw [h1], f1, fun j => ?_⟩
  rw [f2 j, List.length_append]
  have : (typed keys ++ [0xff]).getD j 0xff = (typed keys).getD j 0xff := by
    simp only [List.getD, List.getElem?_append]
    split
    · rfl
    · rename_i h
      rw [List.getElem?_eq_none (show (typed keys).length ≤ j by omega)]
      match j - (typed keys).length with
      | 0 => rfl
      | _ + 1 => rfl
  rw [this]; rfl

omit hP hb in
theorem le_roundUp (R n : Nat) (hR : 0 < R) : n ≤ roundUp R n := by
  unfold roundUp
  have e := Nat.div_add_mod (n + (R - 1)) R
  have := Nat.mod_lt (n + (R - 1)) hR
  rw [Nat.mul_comm] at e
  omega

/-- What was saved is read back, whatever was there before. -/
theorem C48_roundtrip (hP2 : P % 2 = 0) (size : Nat) (keys more : List UInt8) (ht : Text (typed keys)) (hl : (typed keys).length < size) (s : St) :
    ∃ s', write P base (keys ++ 4 :: more) s = some (more, s') ∧ load base size s'.mem 0 = typed keys := by
  obtain ⟨s', h1, _, h3⟩ := C48_memory hP hb hP2 keys more ht s
  refine ⟨s', h1, ?_⟩
  have hle := le_roundUp (4 * P) ((typed keys).length + 1) (by omega)
  exact load_eq _ (fun c hc => (ht c hc).2) size s'.mem (fun j hj => by rw [h3 j, if_pos (by omega)]) hl 0 (by omega)

/-- A text that fits with its mark in a region of whole rows changes nothing outside of the region. -/
theorem C48_outside (hP2 : P % 2 = 0) (size : Nat) (hz : size % (4 * P) = 0) (keys more : List UInt8) (ht : Text (typed keys))
    (hl : (typed keys).length < size) (s : St) :
    ∃ s', write P base (keys ++ 4 :: more) s = some (more, s') ∧ ∀ a, a < base ∨ base + size ≤ a → s'.mem a = s.mem a := by
  obtain ⟨s', h1, h2, h3⟩ := C48_memory hP hb hP2 keys more ht s
  refine ⟨s', h1, fun a ha => ?_⟩
  rcases ha with ha | ha
  · exact h2 a ha
  · obtain ⟨j, rfl⟩ : ∃ j, a = base + j := ⟨a - base, by omega⟩
    rw [h3 j, if_neg]
    have : roundUp (4 * P) ((typed keys).length + 1) ≤ size := by
      unfold roundUp
      have e := Nat.div_add_mod size (4 * P)
      rw [hz, Nat.add_zero, Nat.mul_comm] at e
      have : ((typed keys).length + 1 + (4 * P - 1)) / (4 * P) ≤ size / (4 * P) := by
        rw [← Nat.lt_succ_iff, Nat.div_lt_iff_lt_mul (by omega), Nat.succ_eq_add_one, Nat.add_mul, e]; omega
      have := Nat.mul_le_mul_right (4 * P) this
      omega
    omega

/-- A longer text is written over what follows the region: nothing stops it. -/
theorem C48_violated_overrun (hP2 : P % 2 = 0) (size : Nat) (keys more : List UInt8) (ht : Text (typed keys)) (s : St)
    (j : Nat) (_h1 : size ≤ j) (h2 : j < (typed keys).length) :
    ∃ s', write P base (keys ++ 4 :: more) s = some (more, s') ∧ s'.mem (base + j) = (typed keys)[j] := by
  obtain ⟨s', e1, _, e3⟩ := C48_memory hP hb hP2 keys more ht s
  refine ⟨s', e1, ?_⟩
  have hle := le_roundUp (4 * P) ((typed keys).length + 1) (by omega)
  rw [e3 j, if_pos (by omega)]
  simp [List.getD, List.getElem?_eq_getElem h2]

omit hP hb in
theorem firstErased_spec (base : Nat) (mem : Nat → UInt8) (n : Nat) : firstErased base mem n ≤ n ∧ ∀ j, firstErased base mem n ≤ j → j < n → mem (base + j) = 0xff := by
  induction n with
  | zero => exact ⟨Nat.le_refl _, fun j _ h => by omega⟩
  | succ n ih =>
    rw [firstErased]
    split
    · exact ⟨Nat.le_refl _, fun j h1 h2 => by omega⟩
    · rename_i hn
      refine ⟨by omega, fun j h1 h2 => ?_⟩
      by_cases hj : j = n
      · rw [hj]; exact Decidable.not_not.1 hn
      · exact ih.2 j h1 (by omega)

theorem er_spec (k : Nat) (s : St) : (∀ a, a < base → (cmdER P (base + k * (4 * P)) s).mem a = s.mem a) ∧
    ∀ j, (cmdER P (base + k * (4 * P)) s).mem (base + j) = if k * (4 * P) ≤ j ∧ j < k * (4 * P) + 4 * P then 0xff else s.mem (base + j) := by
  have hR : 0 < 4 * P := by omega
  have e := Nat.div_add_mod base (4 * P)
  rw [hb, Nat.add_zero] at e
  have ek : (base + k * (4 * P)) / (4 * P) = base / (4 * P) + k := by rw [Nat.add_mul_div_right _ _ hR]
  refine ⟨fun a ha => ?_, fun j => ?_⟩
  · show (if _ then _ else _) = _
    rw [if_neg]
    intro h
    have : a / (4 * P) < base / (4 * P) := by rw [Nat.div_lt_iff_lt_mul hR, Nat.mul_comm, e]; exact ha
    omega
  · show (if _ then _ else _) = _
    have : (base + j) / (4 * P) = (base + k * (4 * P)) / (4 * P) ↔ k * (4 * P) ≤ j ∧ j < k * (4 * P) + 4 * P := by
      have eb : (base + j) / (4 * P) = base / (4 * P) + j / (4 * P) := by
        conv => lhs; rw [← e]
        rw [Nat.mul_add_div hR]
      rw [ek, eb, Nat.add_left_cancel_iff, Nat.div_eq_iff hR]
      omega
    simp only [this]

theorem eraseRows_spec (n : Nat) : ∀ s : St, (∀ a, a < base → (eraseRows P base n s).mem a = s.mem a) ∧
    ∀ j, (eraseRows P base n s).mem (base + j) = if j < (n + 1) * (4 * P) then 0xff else s.mem (base + j) := by
  induction n with
  | zero =>
    intro s
    obtain ⟨h1, h2⟩ := er_spec hP hb 0 s
    rw [Nat.zero_mul, Nat.add_zero] at h1 h2
    refine ⟨h1, fun j => ?_⟩
    rw [eraseRows, h2 j]
    simp
  | succ n ih =>
    intro s
    obtain ⟨h1, h2⟩ := er_spec hP hb (n + 1) s
    obtain ⟨i1, i2⟩ := ih (cmdER P (base + (n + 1) * (4 * P)) s)
    refine ⟨fun a ha => (i1 a ha).trans (h1 a ha), fun j => ?_⟩
    rw [eraseRows, i2 j, h2 j, Nat.add_mul (n + 1) 1, Nat.one_mul]
    by_cases hj : j < (n + 1) * (4 * P)
    · rw [if_pos hj, if_pos (by omega)]
    · rw [if_neg hj]
      by_cases hj2 : j < (n + 1) * (4 * P) + 4 * P
      · rw [if_pos hj2, if_pos (by omega)]
      · rw [if_neg hj2, if_neg (by omega)]

/-- Erasing leaves ones in the whole region, and changes nothing else. -/
theorem C48_erase (size : Nat) (hz : size % (4 * P) = 0) (s : St) :
    (∀ j, j < size → (eraseAll P base size s).mem (base + j) = 0xff) ∧
    (∀ a, a < base ∨ base + size ≤ a → (eraseAll P base size s).mem a = s.mem a) ∧
    load base size (eraseAll P base size s).mem 0 = [] := by
  have hR : 0 < 4 * P := by omega
  have e := Nat.div_add_mod size (4 * P)
  rw [hz, Nat.add_zero, Nat.mul_comm] at e
  have main : (∀ j, j < size → (eraseAll P base size s).mem (base + j) = 0xff) ∧
    (∀ a, a < base ∨ base + size ≤ a → (eraseAll P base size s).mem a = s.mem a) := by
    obtain ⟨f1, f2⟩ := firstErased_spec base s.mem size
    unfold eraseAll
    simp only
    generalize firstErased base s.mem size = o at *
    split
    · rename_i h0; exact ⟨fun j hj => f2 j (by omega) hj, fun _ _ => rfl⟩
    · rename_i h0
      obtain ⟨i1, i2⟩ := eraseRows_spec hP hb ((o - 1) / (4 * P)) s
      have hm : (o - 1) / (4 * P) < size / (4 * P) := by rw [Nat.div_lt_iff_lt_mul hR, e]; omega
      have hm2 := Nat.mul_le_mul_right (4 * P) hm
      rw [Nat.succ_eq_add_one] at hm2
      have ho : o ≤ ((o - 1) / (4 * P) + 1) * (4 * P) := by
        have := Nat.lt_mul_div_succ (o - 1) hR
        rw [Nat.mul_comm] at this; omega
      refine ⟨fun j hj => ?_, fun a ha => ?_⟩
      · rw [i2 j]
        split
        · rfl
        · exact f2 j (by omega) hj
      · rcases ha with ha | ha
        · exact i1 a ha
        · obtain ⟨j, rfl⟩ : ∃ j, a = base + j := ⟨a - base, by omega⟩
          rw [i2 j, if_neg (by omega)]
  refine ⟨main.1, main.2, ?_⟩
  rw [load]
  split
  · rename_i h
    rw [main.1 0 h, if_neg (by decide)]
  · rfl

end

/-- Non-vacuity: with pages of 64 bytes and a region at 0x20000 full of zeros, "a\r^Eb" then ^D; and its addresses satisfy the hypotheses. -/
example : 64 % 2 = 0 ∧ 0x20000 % (4 * 64) = 0 ∧ Text (typed [97, 13, 5, 98]) ∧
    ((write 64 0x20000 [97, 13, 5, 98, 4, 62] ⟨fun _ => 0, fun _ => 0, 5, 0, true⟩).map fun w => (w.1, load 0x20000 1024 w.2.mem 0, w.2.mem 0x200ff, w.2.mem 0x20100)) =
      some ([62], [97, 10, 98], 0xff, 0) := by
  refine ⟨by decide, by decide, by unfold Text; decide, by decide +kernel⟩

end Snek.Flash
