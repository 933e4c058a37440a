import Verif.Model.FlashAvr
import Verif.Spec.Eeprom
/-!
# C63: programs saved in the flash of a megaAVR
-/
namespace Snek.FlashAvr
open Spec.Eeprom

/-- The bytes `t` have been written from `start`: whole pages are in the memory, the rest is in the page buffer. -/
structure At (P start : Nat) (old : Nat → UInt8) (t : List UInt8) (s : St) : Prop where
  addr : s.addr = start + t.length
  before : ∀ a, a < start → s.mem a = old a
  mem : ∀ j, s.mem (start + j) = if j < t.length / P * P then t.getD j 0xff else old (start + j)
  pbuf : ∀ i, i < P → s.pbuf i = if i < t.length % P then t.getD (t.length / P * P + i) 0xff else 0xff
  pending : s.pending = decide (t.length % P ≠ 0)
  page : t.length % P ≠ 0 → s.page = (start + t.length) / P

section
variable {P M E start : Nat} (hP : 0 < P) (hs : start % P = 0) (hM : M ≤ start)
include hP hs hM

omit hP hs hM in
theorem init_at (s : St) : At P start s.mem [] (writeInit start s) where
  addr := rfl
  before := fun _ _ => rfl
  mem := fun j => by simp [writeInit]
  pbuf := fun i _ => by simp [writeInit]
  pending := by simp [writeInit]
  page := fun h => by simp at h

omit hM hs in
theorem div_of (q r : Nat) (hr : r < P) : (P * q + r) / P = q ∧ (P * q + r) % P = r := by
  constructor
  · rw [Nat.mul_add_div hP, Nat.div_eq_of_lt hr, Nat.add_zero]
  · rw [Nat.mul_add_mod, Nat.mod_eq_of_lt hr]

theorem byte_at (old : Nat → UInt8) (t : List UInt8) (b : UInt8) (s : St) (h : At P start old t s) : At P start old (t ++ [b]) (writeByte P M b s) := by
  obtain ⟨q0, hq0⟩ : ∃ q, start = P * q := ⟨start / P, by have := Nat.div_add_mod start P; omega⟩
  have e := Nat.div_add_mod t.length P
  have hr := Nat.mod_lt t.length hP
  generalize hq : t.length / P = q at *
  generalize hrr : t.length % P = r at *
  have h1 := h.addr
  have hst : start + t.length = P * (q0 + q) + r := by rw [hq0, ← e, Nat.mul_add]; omega
  obtain ⟨d1, d2⟩ := div_of hP (q0 + q) r hr
  have getT : (t ++ [b]).getD t.length 0xff = b := by simp [List.getD_eq_getElem?_getD]
  have getL : ∀ j, j < t.length → (t ++ [b]).getD j 0xff = t.getD j 0xff := by
    intro j hj; simp [List.getD_eq_getElem?_getD, List.getElem?_append_left hj]
  have eP : q * P = P * q := Nat.mul_comm _ _
  -- the store
  have hstore : store P M s.addr b s = { s with pbuf := fun i => if i = r then s.pbuf i &&& b else s.pbuf i, page := q0 + q } := by
    unfold store
    rw [if_neg (by omega), h1, hst, d1, d2]
  have hbuf : ∀ i, i < P → (if i = r then s.pbuf i &&& b else s.pbuf i) = if i < r + 1 then (t ++ [b]).getD (q * P + i) 0xff else 0xff := by
    intro i hi
    have := h.pbuf i hi
    rw [hq, hrr] at this
    by_cases hir : i = r
    · subst hir
      rw [if_pos rfl, this, if_neg (by omega), if_pos (by omega), show q * P + i = t.length by omega, getT]
      apply UInt8.toBitVec_inj.1
      exact BitVec.allOnes_and
    · rw [if_neg hir, this]
      by_cases hlt : i < r
      · rw [if_pos hlt, if_pos (by omega), getL _ (by omega)]
      · rw [if_neg hlt, if_neg (by omega)]
  unfold writeByte
  rw [hstore]
  simp only
  have haddr : (s.addr + 1) % P = (r + 1) % P := by
    rw [h1, hst, Nat.add_assoc, Nat.mul_add_mod]
  by_cases hlast : r + 1 = P
  · have hm : (s.addr + 1) % P = 0 := by rw [haddr, hlast, Nat.mod_self]
    have hlen : (t ++ [b]).length = P * (q + 1) + 0 := by rw [List.length_append, Nat.mul_add]; simp; omega
    obtain ⟨l1, l2⟩ := div_of hP (q + 1) 0 hP
    rw [← hlen] at l1 l2
    rw [if_pos hm]
    unfold flush cmdEraseWrite
    simp only [if_true]
    constructor
    · rw [h1, List.length_append]; simp; omega
    · intro a ha
      simp only
      rw [if_neg, h.before a ha]
      intro e1
      have : a / P < q0 := (Nat.div_lt_iff_lt_mul hP).2 (by rw [Nat.mul_comm]; omega)
      omega
    · intro j
      simp only
      have ej := Nat.div_add_mod j P
      have hjr := Nat.mod_lt j hP
      have hd : (start + j) / P = q0 + j / P := by rw [hq0, Nat.mul_add_div hP]
      have hmm : (start + j) % P = j % P := by rw [hq0, Nat.mul_add_mod]
      rw [hd, hmm, l1]
      by_cases hjq : j / P = q
      · rw [if_pos (by omega), hbuf _ hjr, if_pos (by omega)]
        rw [hjq] at ej
        rw [if_pos (by rw [Nat.add_mul]; omega), show q * P + j % P = j by omega]
      · rw [if_neg (by omega), h.mem j, hq]
        by_cases hlt : j < q * P
        · rw [if_pos hlt, if_pos (by rw [Nat.add_mul]; omega), getL _ (by omega)]
        · have hge : ¬ j < (q + 1) * P := by
            rw [Nat.add_mul, Nat.one_mul]
            intro hc
            have : j / P = q := Nat.div_eq_of_lt_le (by omega) (by rw [Nat.add_mul]; omega)
            exact hjq this
          rw [if_neg hlt, if_neg hge]
    · intro i hi
      simp only
      rw [l2, if_neg (by omega)]
    · show false = _
      rw [l2]; rfl
    · intro hc; exact absurd l2 hc
  · have hm : (s.addr + 1) % P ≠ 0 := by rw [haddr, Nat.mod_eq_of_lt (by omega)]; omega
    have hlen : (t ++ [b]).length = P * q + (r + 1) := by rw [List.length_append]; simp; omega
    obtain ⟨l1, l2⟩ := div_of hP q (r + 1) (by omega)
    rw [← hlen] at l1 l2
    rw [if_neg hm]
    constructor
    · rw [h1, List.length_append]; simp; omega
    · exact h.before
    · intro j
      simp only
      rw [h.mem j, hq, l1]
      by_cases hlt : j < q * P
      · rw [if_pos hlt, if_pos hlt, getL _ (by omega)]
      · rw [if_neg hlt, if_neg hlt]
    · intro i hi
      simp only
      rw [hbuf i hi, l1, l2]
    · rw [l2]; simp
    · intro _
      have : start + (t ++ [b]).length = P * (q0 + q) + (r + 1) := by rw [hlen, hq0, Nat.mul_add]; omega
      rw [this, (div_of hP (q0 + q) (r + 1) (by omega)).1]

/-- `n` rounded up to whole pages. -/
def pages (P n : Nat) : Nat := (n + (P - 1)) / P * P

omit hs hM in
theorem pages_spec (n : Nat) : pages P n = if n % P = 0 then n / P * P else n / P * P + P := by
  have e := Nat.div_add_mod n P
  have hr := Nat.mod_lt n hP
  unfold pages
  generalize n / P = q at *
  generalize n % P = r at *
  split
  · rename_i h
    rw [← e, h, Nat.add_zero, (div_of hP q (P - 1) (by omega)).1]
  · rename_i h
    have : n + (P - 1) = P * (q + 1) + (r - 1) := by rw [Nat.mul_add]; omega
    rw [this, (div_of hP (q + 1) (r - 1) (by omega)).1, Nat.add_mul, Nat.one_mul]

omit hM in
/-- After flushing, whole pages. -/
theorem flush_at (old : Nat → UInt8) (t : List UInt8) (s : St) (h : At P start old t s) : (∀ a, a < start → (flush P s).mem a = old a) ∧
    ∀ j, (flush P s).mem (start + j) = if j < pages P t.length then t.getD j 0xff else old (start + j) := by
  obtain ⟨q0, hq0⟩ : ∃ q, start = P * q := ⟨start / P, by have := Nat.div_add_mod start P; omega⟩
  rw [pages_spec hP]
  have e := Nat.div_add_mod t.length P
  have hr := Nat.mod_lt t.length hP
  have hmem := h.mem
  have hpb := h.pbuf
  have hpd := h.pending
  have hpg := h.page
  generalize hq : t.length / P = q at *
  generalize hrr : t.length % P = r at *
  unfold flush
  by_cases h0 : r = 0
  · rw [hpd, if_neg (by simp [h0])]
    exact ⟨h.before, fun j => by rw [hmem j, if_pos h0]⟩
  · rw [hpd, if_pos (by simp [h0]), if_neg h0]
    unfold cmdEraseWrite
    simp only
    have hst : start + t.length = P * (q0 + q) + r := by rw [hq0, ← e, Nat.mul_add]; omega
    rw [hpg h0, hst, (div_of hP (q0 + q) r hr).1]
    constructor
    · intro a ha
      rw [if_neg, h.before a ha]
      intro e1
      have : a / P < q0 := (Nat.div_lt_iff_lt_mul hP).2 (by rw [Nat.mul_comm]; omega)
      omega
    · intro j
      have ej := Nat.div_add_mod j P
      have hjr := Nat.mod_lt j hP
      have hd : (start + j) / P = q0 + j / P := by rw [hq0, Nat.mul_add_div hP]
      have hmm : (start + j) % P = j % P := by rw [hq0, Nat.mul_add_mod]
      have eP : q * P = P * q := Nat.mul_comm _ _
      rw [hd, hmm]
      by_cases hjq : j / P = q
      · rw [if_pos (by omega), hpb _ hjr]
        rw [hjq] at ej
        rw [if_pos (show j < q * P + P by omega)]
        by_cases hjl : j % P < r
        · rw [if_pos hjl, show q * P + j % P = j by omega]
        · rw [if_neg hjl]
          have : t.length ≤ j := by omega
          simp [List.getD_eq_getElem?_getD, List.getElem?_eq_none this]
      · rw [if_neg (by omega), hmem j]
        by_cases hlt : j < q * P
        · rw [if_pos hlt, if_pos (by omega)]
        · have hge : ¬ j < q * P + P := by
            intro hc
            have : j / P = q := Nat.div_eq_of_lt_le (by omega) (by rw [Nat.add_mul]; omega)
            exact hjq this
          rw [if_neg hlt, if_neg hge]

/-- The loop on text that leaves room. -/
theorem loop_text (old : Nat → UInt8) : ∀ (keys t more : List UInt8) (s : St), Text (typed keys) → start + t.length + (typed keys).length < E →
    At P start old t s → ∃ s', writeLoop P M E (keys ++ more) s = writeLoop P M E more s' ∧ At P start old (t ++ typed keys) s' := by
  intro keys
  induction keys with
  | nil => intro t more s _ _ h; exact ⟨s, rfl, by simpa [typed] using h⟩
  | cons k keys ih =>
    intro t more s ht hl h
    rw [List.cons_append, writeLoop]
    by_cases h5 : k = 5
    · have e : typed (k :: keys) = typed keys := by simp [typed, h5]
      rw [e] at ht hl ⊢
      rw [if_pos h5]
      exact ih t more s ht hl h
    · have e : typed (k :: keys) = (if k = 13 then 10 else k) :: typed keys := by simp [typed, h5]
      rw [e] at ht hl ⊢
      obtain ⟨h4, h255⟩ := ht _ List.mem_cons_self
      rw [if_neg h5]
      simp only
      generalize (if k = 13 then 10 else k) = c at *
      rw [if_neg h4]
      have hb := byte_at hP hs hM old t c s h
      simp only [List.length_cons] at hl
      have ha : (writeByte P M c s).addr ≠ E := by rw [hb.addr, List.length_append]; simp; omega
      rw [if_neg ha, if_neg h255]
      obtain ⟨s', e1, e2⟩ := ih (t ++ [c]) more _ (fun d hd => ht d (List.mem_cons_of_mem _ hd)) (by rw [List.length_append]; simp; omega) hb
      exact ⟨s', e1, by rw [List.append_assoc] at e2; exact e2⟩

/-- Writing text and ^D with room for both: it returns, has read exactly these keys, the pages that it needs hold the text and ones, and
nothing else changes. -/
theorem C63_memory (keys more : List UInt8) (ht : Text (typed keys)) (hl : start + (typed keys).length < E) (s : St) :
    ∃ s', write P M E start (keys ++ 4 :: more) s = (true, more, s') ∧ (∀ a, a < start → s'.mem a = s.mem a) ∧
      ∀ j, s'.mem (start + j) = if j < pages P ((typed keys).length + 1) then (typed keys).getD j 0xff else s.mem (start + j) := by
  obtain ⟨s1, e1, a1⟩ := loop_text hP hs hM s.mem keys [] (4 :: more) (writeInit start s) ht (by simpa using hl) (init_at s)
  rw [List.nil_append] at a1
  have hb := byte_at hP hs hM s.mem _ 0xff s1 a1
  obtain ⟨f1, f2⟩ := flush_at hP hs s.mem _ _ hb
  refine ⟨flush P (writeByte P M 0xff s1), ?_, f1, fun j => ?_⟩
  · have hw : writeLoop P M E (4 :: more) s1 = (true, more, writeByte P M 0xff s1) := by
      rw [writeLoop, if_neg (by decide)]
      simp only [show (if (if (4 : UInt8) = 13 then 10 else 4) = (4 : UInt8) then 255 else (if (4 : UInt8) = 13 then 10 else 4)) = (255 : UInt8) by decide, if_true]
      split <;> rfl
    unfold write
    rw [e1, hw]
  · rw [f2 j, List.length_append]
    congr 1
    simp only [List.getD_eq_getElem?_getD]
    by_cases hj : j < (typed keys).length
    · rw [List.getElem?_append_left hj]
    · rw [List.getElem?_append_right (by omega), List.getElem?_eq_none (show (typed keys).length ≤ j by omega)]
      cases h : ([0xff] : List UInt8)[j - (typed keys).length]? with
      | none => rfl
      | some c =>
        have := List.mem_of_getElem? h
        rw [List.mem_singleton] at this
        rw [this]; rfl

/-- Text that fills the memory but for the last byte, or is longer: the bytes that fit are stored, and the rest of the keys, with the ^D,
is left to whoever reads them next. -/
theorem C63_cut (keys more : List UInt8) (k : UInt8) (h5 : k ≠ 5) (ht : Text (typed (keys ++ [k]))) (hl : start + (typed (keys ++ [k])).length = E) (s : St) :
    ∃ s', write P M E start (keys ++ k :: more) s = (true, more, s') ∧ (∀ a, a < start → s'.mem a = s.mem a) ∧
      ∀ j, s'.mem (start + j) = if j < pages P (typed (keys ++ [k])).length then (typed (keys ++ [k])).getD j 0xff else s.mem (start + j) := by
  have e : typed (keys ++ [k]) = typed keys ++ [if k = 13 then 10 else k] := by simp [typed, h5]
  rw [e] at ht hl ⊢
  have ht1 : Text (typed keys) := fun c hc => ht c (List.mem_append_left _ hc)
  obtain ⟨h4, h255⟩ := ht (if k = 13 then 10 else k) (by simp)
  simp only [List.length_append, List.length_cons, List.length_nil] at hl
  obtain ⟨s1, e1, a1⟩ := loop_text (E := E) hP hs hM s.mem keys [] (k :: more) (writeInit start s) ht1 (by simp only [List.length_nil]; omega) (init_at s)
  rw [List.nil_append] at a1
  generalize hc : (if k = 13 then 10 else k) = c at *
  have hb := byte_at hP hs hM s.mem _ c s1 a1
  obtain ⟨f1, f2⟩ := flush_at hP hs s.mem _ _ hb
  refine ⟨flush P (writeByte P M c s1), ?_, f1, f2⟩
  have hadr : (writeByte P M c s1).addr = E := by rw [hb.addr, List.length_append]; simp; omega
  have hw : writeLoop P M E (k :: more) s1 = (true, more, writeByte P M c s1) := by
    rw [writeLoop, if_neg h5]
    simp only [hc, if_neg h4]
    rw [if_pos hadr]
  unfold write
  rw [e1, hw]

omit hP hs hM in
theorem load_getD (t : List UInt8) (ht : Text t) (mem : Nat → UInt8) (size : Nat) (hl : t.length < size)
    (h : ∀ j, j ≤ t.length → mem (start + j) = t.getD j 0xff) (o : Nat) (ho : o ≤ t.length) : load start size mem o = t.drop o := by
  rw [load, dif_pos (by omega)]
  by_cases hlt : o < t.length
  · have e : mem (start + o) = t[o] := by rw [h o (by omega), List.getD_eq_getElem?_getD, List.getElem?_eq_getElem hlt]; rfl
    have h255 := (ht t[o] (List.getElem_mem hlt)).2
    rw [e, if_pos h255, load_getD t ht mem size hl h (o + 1) hlt, List.drop_eq_getElem_cons hlt]
  · have e : mem (start + o) = 0xff := by rw [h o (by omega), List.getD_eq_getElem?_getD, List.getElem?_eq_none (by omega)]; rfl
    rw [e, if_neg (by simp), List.drop_eq_nil_of_le (by omega)]
termination_by size - o

omit hP hs hM in
theorem show_getD (t : List UInt8) (ht : Text t) (mem : Nat → UInt8) (hE : E < 65536) (hl : start + t.length ≤ E)
    (h : ∀ j, j ≤ t.length → mem (start + j) = t.getD j 0xff) : ∀ (fuel o : Nat), o ≤ t.length → t.length < o + fuel → showLoop E mem fuel (start + o) = some (t.drop o) := by
  intro fuel
  induction fuel with
  | zero => intro o h1 h2; omega
  | succ fuel ih =>
    intro o ho hf
    rw [showLoop, if_pos (by omega)]
    by_cases hlt : o < t.length
    · have e : mem (start + o) = t[o] := by rw [h o (by omega), List.getD_eq_getElem?_getD, List.getElem?_eq_getElem hlt]; rfl
      have h255 := (ht t[o] (List.getElem_mem hlt)).2
      rw [e, if_neg h255, Nat.mod_eq_of_lt (by omega), Nat.add_assoc, ih (o + 1) hlt (by omega), List.drop_eq_getElem_cons hlt]
      rfl
    · have e : mem (start + o) = 0xff := by rw [h o (by omega), List.getD_eq_getElem?_getD, List.getElem?_eq_none (by omega)]; rfl
      rw [e, if_pos rfl, List.drop_eq_nil_of_le (by omega)]

omit hs hM in
theorem le_pages (n : Nat) : n ≤ pages P n := by
  rw [pages_spec hP]
  have e := Nat.div_add_mod n P
  have hr := Nat.mod_lt n hP
  rw [Nat.mul_comm] at e
  split <;> omega

omit hM in
theorem pages_le (n : Nat) (hE : (E + 1) % P = 0) (h : start + n ≤ E + 1) : start + pages P n ≤ E + 1 := by
  obtain ⟨q0, hq0⟩ : ∃ q, start = P * q := ⟨start / P, by have := Nat.div_add_mod start P; omega⟩
  obtain ⟨q1, hq1⟩ : ∃ q, E + 1 = P * q := ⟨(E + 1) / P, by have := Nat.div_add_mod (E + 1) P; omega⟩
  rw [hq0, hq1] at h ⊢
  have hle : q0 ≤ q1 := by
    rcases Nat.lt_or_ge q1 q0 with h' | h'
    · have := Nat.mul_le_mul_left P (show q1 + 1 ≤ q0 from h'); rw [Nat.mul_add] at this; omega
    · exact h'
  obtain ⟨d, rfl⟩ : ∃ d, q1 = q0 + d := ⟨q1 - q0, by omega⟩
  rw [Nat.mul_add] at h ⊢
  have hn : n ≤ P * d := by omega
  have : (n + (P - 1)) / P ≤ d := Nat.le_of_lt_succ ((Nat.div_lt_iff_lt_mul hP).2 (by rw [Nat.succ_mul, Nat.mul_comm d]; omega))
  have := Nat.mul_le_mul_right P this
  unfold pages
  rw [Nat.mul_comm d] at this
  omega

/-- What is saved is read at boot and shown. -/
theorem C63_roundtrip (h0 : start ≠ 0) (hE : E < 65536) (keys more : List UInt8) (ht : Text (typed keys)) (hl : start + (typed keys).length < E) (s : St) :
    ∃ s', write P M E start (keys ++ 4 :: more) s = (true, more, s') ∧ load start (flashSize E start) s'.mem 0 = typed keys ∧
      show_ E start false s'.mem 65536 = some (typed keys) ∧ show_ E start true s'.mem 65536 = some ([2] ++ typed keys ++ [3]) := by
  obtain ⟨s', h1, _, h3⟩ := C63_memory hP hs hM keys more ht hl s
  have hle := le_pages hP ((typed keys).length + 1)
  have hm : ∀ j, j ≤ (typed keys).length → s'.mem (start + j) = (typed keys).getD j 0xff := fun j hj => by rw [h3 j, if_pos (by omega)]
  have hsh := show_getD _ ht s'.mem hE (by omega) hm 65536 0 (by omega) (by omega)
  rw [Nat.add_zero, List.drop_zero] at hsh
  refine ⟨s', h1, ?_, ?_, ?_⟩
  · exact load_getD _ ht s'.mem _ (by unfold flashSize; rw [if_neg h0]; omega) hm 0 (by omega)
  · unfold show_; rw [hsh]; simp
  · unfold show_; rw [hsh]; simp

/-- Text that does not fit is cut off one byte before the end, and that much is read at boot and shown (the last byte of the flash is
always 255, without which showing would go on at address 0). -/
theorem C63_overlong (h0 : start ≠ 0) (hE : E < 65536) (hEP : (E + 1) % P = 0) (hP1 : 1 < P) (keys more : List UInt8) (k : UInt8) (h5 : k ≠ 5) (ht : Text (typed (keys ++ [k])))
    (hl : start + (typed (keys ++ [k])).length = E) (s : St) :
    ∃ s', write P M E start (keys ++ k :: more) s = (true, more, s') ∧ load start (flashSize E start) s'.mem 0 = typed (keys ++ [k]) ∧
      show_ E start false s'.mem 65536 = some (typed (keys ++ [k])) ∧ s'.mem E = 0xff := by
  obtain ⟨s', h1, _, h3⟩ := C63_cut hP hs hM keys more k h5 ht hl s
  generalize hT : typed (keys ++ [k]) = t at *
  have hpg : t.length < pages P t.length := by
    rw [pages_spec hP]
    have e := Nat.div_add_mod t.length P
    have hr := Nat.mod_lt t.length hP
    rw [Nat.mul_comm] at e
    have : t.length % P ≠ 0 := by
      intro h
      rw [← hl, Nat.add_assoc, Nat.add_mod, hs, Nat.zero_add, Nat.mod_mod, Nat.add_mod, h, Nat.zero_add, Nat.mod_mod, Nat.mod_eq_of_lt hP1] at hEP
      cases hEP
    rw [if_neg this]
    omega
  have hm : ∀ j, j ≤ t.length → s'.mem (start + j) = t.getD j 0xff := fun j hj => by rw [h3 j, if_pos (by omega)]
  have hsh := show_getD _ ht s'.mem hE (by omega) hm 65536 0 (by omega) (by omega)
  rw [Nat.add_zero, List.drop_zero] at hsh
  refine ⟨s', h1, ?_, ?_, ?_⟩
  · exact load_getD _ ht s'.mem _ (by unfold flashSize; rw [if_neg h0]; omega) hm 0 (by omega)
  · unfold show_; rw [hsh]; simp
  · have := hm t.length (Nat.le_refl _)
    rw [hl] at this
    rw [this, List.getD_eq_getElem?_getD, List.getElem?_eq_none (Nat.le_refl _)]; rfl

/-- Nothing outside of the region changes. -/
theorem C63_outside (hEP : (E + 1) % P = 0) (keys more : List UInt8) (ht : Text (typed keys)) (hl : start + (typed keys).length < E) (s : St) :
    ∃ s', write P M E start (keys ++ 4 :: more) s = (true, more, s') ∧ ∀ a, a < start ∨ E < a → s'.mem a = s.mem a := by
  obtain ⟨s', h1, h2, h3⟩ := C63_memory hP hs hM keys more ht hl s
  refine ⟨s', h1, fun a ha => ?_⟩
  rcases ha with ha | ha
  · exact h2 a ha
  · have := pages_le hP hs ((typed keys).length + 1) hEP (by omega)
    obtain ⟨j, rfl⟩ : ∃ j, a = start + j := ⟨a - start, by omega⟩
    rw [h3 j, if_neg (by omega)]

/-- Interrupted before the ^D: whole pages of the new text, followed by what was there. -/
theorem C63_interrupted (keys : List UInt8) (ht : Text (typed keys)) (hl : start + (typed keys).length < E) (s : St) :
    ∃ s', write P M E start keys s = (false, [], s') ∧ (∀ a, a < start → s'.mem a = s.mem a) ∧
      ∀ j, s'.mem (start + j) = if j < (typed keys).length / P * P then (typed keys).getD j 0xff else s.mem (start + j) := by
  obtain ⟨s1, e1, a1⟩ := loop_text (E := E) hP hs hM s.mem keys [] [] (writeInit start s) ht (by simpa using hl) (init_at s)
  rw [List.append_nil, List.nil_append] at *
  refine ⟨s1, ?_, a1.before, a1.mem⟩
  unfold write
  rw [e1]; rfl

/-- Erasing leaves an empty program, if the byte at data address 0 (an I/O register, not the first byte of the program) is not 255. -/
theorem C63_erase (s : St) (h : s.mem 0 ≠ 0xff) (h0 : start ≠ 0) (hE : start ≤ E) :
    load start (flashSize E start) (erase P M start s).mem 0 = [] ∧ show_ E start false (erase P M start s).mem 65536 = some [] := by
  have hb := byte_at hP hs hM s.mem [] 0xff (writeInit start s) (init_at s)
  obtain ⟨_, f2⟩ := flush_at hP hs s.mem _ _ hb
  have hz := f2 0
  have hle := le_pages hP 1
  rw [if_pos (by simp; omega)] at hz
  have hm : (erase P M start s).mem start = 0xff := by unfold erase; rw [if_pos h]; exact hz
  constructor
  · rw [load, dif_pos (by unfold flashSize; rw [if_neg h0]; omega), Nat.add_zero, if_neg (by rw [hm]; simp)]
  · unfold show_
    rw [show (65536 : Nat) = 65535 + 1 from rfl, showLoop, if_pos hE, if_pos hm]; rfl

omit hP hs hM in
/-- Otherwise erasing does nothing. -/
theorem C63_violated_erase (s : St) (h : s.mem 0 = 0xff) : erase P M start s = s := by
  unfold erase; rw [if_neg (by rw [h]; simp)]

end

/-- If the chip's fuse reserves no flash, the program goes to address 0 and up: into the I/O registers. -/
theorem C63_violated_nofuse (P M E : Nat) (hP : 1 < P) (hM : 0 < M) (hE : 1 < E) (k : UInt8) (h4 : k ≠ 4) (h5 : k ≠ 5) (h13 : k ≠ 13) (h255 : k ≠ 0xff) (s : St) :
    ∃ s', writeLoop P M E [k] (writeInit (flashStart M 0) s) = (false, [], s') ∧ s'.mem 0 = k := by
  have h : 1 % P ≠ 0 := by rw [Nat.mod_eq_of_lt hP]; decide
  have hf : flashStart M 0 = 0 := rfl
  rw [hf, writeLoop, if_neg h5]
  simp only [if_neg h13, if_neg h4, if_neg h255]
  refine ⟨writeByte P M k (writeInit 0 s), ?_, ?_⟩
  · rw [if_neg, writeLoop]
    unfold writeByte store writeInit
    simp only [if_pos hM]
    split
    · unfold flush cmdEraseWrite; simp only [if_true]; omega
    · simp only; omega
  · unfold writeByte store writeInit
    simp only [if_pos hM, Nat.zero_add, if_neg h, if_true]

/-- Non-vacuity: the ATmega4809 with pages of 128 bytes and the program from 0xc000; the text "a\r^Eb" is saved as "a\nb". -/
example : ∃ s', write 128 0x4000 0xffff (flashStart 0x4000 0x80) ([97, 13, 5, 98] ++ 4 :: [7]) ⟨fun _ => 0, fun _ => 0, 0, 0, true⟩ = (true, [7], s') ∧
    load 0xc000 (flashSize 0xffff 0xc000) s'.mem 0 = [97, 10, 98] := by
  obtain ⟨s', h1, h2, _⟩ := C63_roundtrip (P := 128) (M := 0x4000) (E := 0xffff) (start := 0xc000) (by decide) (by decide) (by decide) (by decide) (by decide)
    [97, 13, 5, 98] [7] (by unfold Text; decide) (by decide) ⟨fun _ => 0, fun _ => 0, 0, 0, true⟩
  exact ⟨s', h1, h2⟩

end Snek.FlashAvr
