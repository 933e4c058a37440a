import Verif.Model.Io
import Verif.Spec.Editor
/-!
# C44: the interactive line editor returns what was typed

The theorems are about `getc`, the function through which the interpreter reads characters interactively (Model/Io), and the editor
of Spec/Editor; the line has room for `size - 1` characters besides its newline.
-/
namespace Snek.Io
open Spec.Editor

/-- All characters were consumed and nothing is kept; every call leaves the editor so, unless it was interrupted. -/
structure Idle (size : Nat) (s : St) : Prop where
  len : s.buf.length = size
  done : s.used = s.avail
  none : s.unget = 0
  ok : s.oob = false

/-- A sequence of calls, with the flags `snek_parse_middle` and `snek_in_input` of each. -/
def reads (size : Nat) : List (Bool × Bool) → St → Option (List Res × St)
  | [], s => some ([], s)
  | f :: fs, s =>
    match getc size f.1 f.2 s with
    | .none => .none
    | some (r, s) =>
      match reads size fs s with
      | .none => .none
      | some (rs, s) => some (r :: rs, s)

/-- While a line is typed. -/
structure Rep (size : Nat) (s : St) (line : List UInt8) : Prop where
  len : s.buf.length = size
  avail : s.avail = line.length
  pre : s.buf.take line.length = line
  room : line.length ≤ size - 1
  used : s.used = 0
  none : s.unget = 0
  ok : s.oob = false

theorem kill_eq : ∀ (n : Nat) (s : St), s.avail = n → kill n s = { s with avail := 0, out := s.out ++ (List.replicate n [8, 32, 8]).flatten } := by
  intro n
  induction n with
  | zero => intro s h; cases s; cases h; simp [kill]
  | succ n ih =>
    intro s h
    rw [kill, ih (backspace s) (by show s.avail - 1 = n; omega)]
    simp [backspace, put, List.replicate_succ]

theorem take_set_append {α} (l : List α) (n : Nat) (c : α) (h : n < l.length) : (l.set n c).take (n + 1) = l.take n ++ [c] := by
  rw [List.take_set]
  rw [List.take_add_one, List.getElem?_eq_getElem h]
  rw [List.set_append_right _ _ (by simp; omega)]
  simp [Nat.min_eq_left (Nat.le_of_lt h)]

theorem addc_rep {size : Nat} {s : St} {line : List UInt8} (h : Rep size s line) (hs : size ≤ 255) (hr : line.length < size - 1) (c : UInt8) :
    Rep size (addc c s) (line ++ [c]) := by
  obtain ⟨h1, h2, h3, h4, h5, h6, h7⟩ := h
  have hd : decide (s.buf.length ≤ s.avail) = false := decide_eq_false (by omega)
  have hm : (s.avail + 1) % 256 = s.avail + 1 := Nat.mod_eq_of_lt (by omega)
  have ht := take_set_append s.buf s.avail c (by omega)
  unfold addc
  simp only [hd, hm, Bool.or_false]
  split
  all_goals
    refine ⟨?_, ?_, ?_, ?_, h5, h6, h7⟩
    · simp [put, h1]
    · simp [put, h2]
    · simp only [put, List.length_append, List.length_cons, List.length_nil, Nat.zero_add]
      rw [← h2, ht, h2, h3]
    · simp; omega

theorem back_rep {size : Nat} {s : St} {line : List UInt8} (h : Rep size s line) : Rep size (backspace s) line.dropLast := by
  obtain ⟨h1, h2, h3, h4, h5, h6, h7⟩ := h
  refine ⟨h1, ?_, ?_, ?_, h5, h6, h7⟩
  · simp [backspace, put, h2]
  · simp only [backspace, put, List.length_dropLast]
    have : s.buf.take (line.length - 1) = (s.buf.take line.length).take (line.length - 1) := by rw [List.take_take, Nat.min_eq_left (by omega)]
    rw [this, h3, List.dropLast_eq_take]
  · simp; omega

theorem addc_raw (c : UInt8) (s : St) : (addc c s).raw = s.raw := by unfold addc; simp only; split <;> rfl

theorem addc_out (c : UInt8) (s : St) (h : s.raw = false) : (addc c s).out = s.out ++ [c] := by unfold addc; simp only [h]; rfl

theorem shows_type {t : Term} {l : List UInt8} (h : t.Shows l) {c : UInt8} (hc : 32 ≤ c) : (t.feed c).Shows (l ++ [c]) := by
  obtain ⟨n, rfl⟩ := h
  refine ⟨n - 1, ?_⟩
  unfold Term.feed
  rw [if_neg (by rintro rfl; exact absurd hc (by decide)), if_neg (by rintro rfl; exact absurd hc (by decide)), if_pos hc]
  simp only [List.take_left, List.length_append, List.length_cons, List.length_nil]
  rw [List.drop_append, List.drop_eq_nil_of_le (by omega), List.drop_replicate]
  simp

theorem shows_back {t : Term} {l : List UInt8} {x : UInt8} (h : t.Shows (l ++ [x])) : (((t.feed 8).feed 32).feed 8).Shows l := by
  obtain ⟨n, rfl⟩ := h
  refine ⟨n + 1, ?_⟩
  simp [Term.feed, List.replicate_succ]

theorem shows_kill {pre : List UInt8} : ∀ (n : Nat) {t : Term} {l : List UInt8}, l.length = n → t.Shows (pre ++ l) →
    ((List.replicate n [8, 32, 8]).flatten.foldl Term.feed t).Shows pre := by
  intro n
  induction n with
  | zero => intro t l hl h; cases l with | nil => simpa using h | cons => cases hl
  | succ n ih =>
    intro t l hl h
    rw [List.replicate_succ, List.flatten_cons, List.foldl_append]
    have hne : l ≠ [] := by rintro rfl; cases hl
    have e : pre ++ l = (pre ++ l.dropLast) ++ [l.getLast hne] := by rw [List.append_assoc, List.dropLast_concat_getLast]
    rw [e] at h
    exact ih (by simp [hl]) (shows_back h)

/-- What the terminal is sent keeps it showing the line. -/
def Echo (s s' : St) (line line' : List UInt8) : Prop :=
  ∃ o, s'.out = s.out ++ o ∧ ∀ (t : Term) (pre : List UInt8), t.Shows (pre ++ line) → (o.foldl Term.feed t).Shows (pre ++ line')

theorem Echo.same {s s' : St} {line : List UInt8} (h : s'.out = s.out) : Echo s s' line line := ⟨[], by simp [h], fun _ _ h => h⟩

theorem Echo.trans {a b c : St} {l m n : List UInt8} (h : Echo a b l m) (g : Echo b c m n) : Echo a c l n := by
  obtain ⟨o, e, h⟩ := h
  obtain ⟨p, f, g⟩ := g
  exact ⟨o ++ p, by rw [f, e, List.append_assoc], fun t pre ht => by rw [List.foldl_append]; exact g _ _ (h _ _ ht)⟩

/-- One key that does not end the loop. -/
theorem key_rep {size : Nat} {inp : Bool} {s : St} {line : List UInt8} (h : Rep size s line) (hs : size ≤ 255) {c : UInt8} (h10 : c ≠ 10) (h3 : c ≠ 3) :
    ∃ s', key size inp c s = (.again, s') ∧ Rep size s' (press (size - 1) line c) ∧
      (s.raw = false → c ≠ 14 → s'.raw = false ∧ Echo s s' line (press (size - 1) line c)) := by
  have type_ : ∀ c : UInt8, 32 ≤ c → ∀ line', line' = (if line.length < size - 1 then line ++ [c] else line) →
      Rep size (if 32 ≤ c ∧ s.avail < size - 1 then addc c s else s) line' ∧
      (s.raw = false → (if 32 ≤ c ∧ s.avail < size - 1 then addc c s else s).raw = false ∧
        Echo s (if 32 ≤ c ∧ s.avail < size - 1 then addc c s else s) line line') := by
    rintro c hc line' rfl
    rw [h.avail]
    by_cases hr : line.length < size - 1
    · rw [if_pos ⟨hc, hr⟩, if_pos hr]
      refine ⟨addc_rep h hs hr c, fun hw => ⟨by rw [addc_raw, hw], [c], addc_out c s hw, fun t pre ht => ?_⟩⟩
      rw [← List.append_assoc]
      exact shows_type ht hc
    · rw [if_neg (fun x => hr x.2), if_neg hr]
      exact ⟨h, fun hw => ⟨hw, .same rfl⟩⟩
  unfold key press
  rw [if_neg h10]
  split
  · rename_i e; subst e
    refine ⟨_, rfl, ?_, fun _ hh => absurd rfl hh⟩
    obtain ⟨h1, h2, h3, h4, h5, h6, h7⟩ := h
    exact ⟨h1, h2, h3, h4, h5, h6, h7⟩
  · rename_i h14
    split
    · rename_i e; subst e
      refine ⟨_, rfl, ?_, fun _ _ => ⟨rfl, .same rfl⟩⟩
      obtain ⟨h1, h2, h3, h4, h5, h6, h7⟩ := h
      exact ⟨h1, h2, h3, h4, h5, h6, h7⟩
    · rename_i h15
      split
      · refine ⟨_, rfl, ?_⟩
        split
        · rename_i e
          refine ⟨back_rep h, fun hw _ => ⟨hw, [8, 32, 8], rfl, fun t pre ht => ?_⟩⟩
          have hne : line ≠ [] := by rintro rfl; exact e h.avail
          have e : pre ++ line = (pre ++ line.dropLast) ++ [line.getLast hne] := by rw [List.append_assoc, List.dropLast_concat_getLast]
          rw [e] at ht
          exact shows_back ht
        · rename_i e
          have : line = [] := by cases line with | nil => rfl | cons a l => exact absurd h.avail (by simp at e ⊢; omega)
          subst this; exact ⟨h, fun hw _ => ⟨hw, .same rfl⟩⟩
      · split
        · refine ⟨_, rfl, ?_⟩
          rw [kill_eq s.avail s rfl]
          refine ⟨⟨h.len, rfl, rfl, Nat.zero_le _, h.used, h.none, h.ok⟩, fun hw _ => ⟨hw, _, rfl, fun t pre ht => ?_⟩⟩
          rw [List.append_nil]
          exact shows_kill s.avail h.avail.symm ht
        · refine ⟨_, rfl, ?_⟩
          split
          · exact ⟨(type_ 32 (by decide) _ rfl).1, fun hw _ => (type_ 32 (by decide) _ rfl).2 hw⟩
          · by_cases h32 : 32 ≤ c
            · rw [if_pos h32]
              exact ⟨(type_ c h32 _ rfl).1, fun hw _ => (type_ c h32 _ rfl).2 hw⟩
            · rw [if_neg h32, if_neg (fun x => h32 x.1)]
              exact ⟨h, fun hw _ => ⟨hw, .same rfl⟩⟩

theorem put_rep {size : Nat} {s : St} {line : List UInt8} (h : Rep size s line) (o : List UInt8) : Rep size (put o s) line :=
  ⟨h.len, h.avail, h.pre, h.room, h.used, h.none, h.ok⟩

theorem press5 (r : Nat) (l : List UInt8) : press r l 5 = l := by unfold press; rw [if_neg (by decide), if_neg (by decide), if_neg (by decide), if_neg (by decide)]

/-- The keys of a line, up to what ends it. -/
theorem loop_rep {size : Nat} {inp : Bool} (hs : size ≤ 255) {rest : List UInt8} {ks : List UInt8} (hk : Plain ks) :
    ∀ {s : St} {line : List UInt8}, Rep size s line → ∃ s', loop size inp (ks ++ rest) s = loop size inp rest s' ∧
      Rep size s' (ks.foldl (press (size - 1)) line) ∧
      (s.raw = false → 14 ∉ ks → s'.raw = false ∧ Echo s s' line (ks.foldl (press (size - 1)) line)) := by
  induction ks with
  | nil => intro s line h; exact ⟨s, rfl, h, fun hw _ => ⟨hw, .same rfl⟩⟩
  | cons c ks ih =>
    intro s line h
    have ih := @ih (fun x hx => hk x (List.mem_cons_of_mem _ hx))
    obtain ⟨h10, h13, h3⟩ := hk c List.mem_cons_self
    rw [List.cons_append, loop, List.foldl_cons]
    by_cases h5 : c = 5
    · subst h5
      rw [if_pos rfl, press5]
      obtain ⟨s', e, h', g⟩ := ih (put_rep h [6])
      refine ⟨s', e, h', fun hw hn => ?_⟩
      obtain ⟨g1, g2⟩ := g hw (fun x => hn (List.mem_cons_of_mem _ x))
      have : Echo s (put [6] s) line line := ⟨[6], rfl, fun t pre ht => by
        have : t.feed 6 = t := by unfold Term.feed; rw [if_neg (by decide), if_neg (by decide), if_neg (by decide)]
        show (t.feed 6).Shows _
        rw [this]; exact ht⟩
      exact ⟨g1, this.trans g2⟩
    · rw [if_neg h5, if_neg h13]
      obtain ⟨s1, e, h1, g⟩ := key_rep (inp := inp) h hs h10 h3
      rw [e]
      obtain ⟨s', e, h', g'⟩ := ih h1
      refine ⟨s', e, h', fun hw hn => ?_⟩
      obtain ⟨g1, g2⟩ := g hw (fun x => hn (x ▸ List.mem_cons_self))
      obtain ⟨g3, g4⟩ := g' g1 (fun x => hn (List.mem_cons_of_mem _ x))
      exact ⟨g3, g2.trans g4⟩

/-- The end of a line. -/
theorem newline_rep {size : Nat} {s : St} {line : List UInt8} (h : Rep size s line) (hs : 0 < size) (hs' : size ≤ 255) :
    (addc 10 s).buf.length = size ∧ (addc 10 s).avail = line.length + 1 ∧ (addc 10 s).buf.take (line.length + 1) = line ++ [10] ∧
    (addc 10 s).used = 0 ∧ (addc 10 s).unget = 0 ∧ (addc 10 s).oob = false := by
  obtain ⟨h1, h2, h3, h4, h5, h6, h7⟩ := h
  have hd : decide (s.buf.length ≤ s.avail) = false := decide_eq_false (by omega)
  have hm : (s.avail + 1) % 256 = s.avail + 1 := Nat.mod_eq_of_lt (by omega)
  have ht := take_set_append s.buf s.avail 10 (by omega)
  unfold addc
  simp only [hd, hm, Bool.or_false]
  split
  all_goals
    refine ⟨by simp [put, h1], by simp [put, h2], ?_, h5, h6, h7⟩
    simp only [put]
    rw [← h2, ht, h2, h3]

theorem start_rep {size : Nat} {s : St} (h : Idle size s) (o : List UInt8) : Rep size { put o s with used := 0, avail := 0 } [] :=
  ⟨h.len, rfl, rfl, Nat.zero_le _, rfl, h.none, h.ok⟩

/-- Reading what is in the buffer. -/
theorem reads_buf {size : Nat} (hs : size ≤ 255) (l : List UInt8) : ∀ (s : St) (fs : List (Bool × Bool)), fs.length = l.length → s.buf.length = size →
    s.avail = s.used + l.length → s.avail ≤ size → (s.buf.drop s.used).take l.length = l → s.oob = false → s.unget = 0 →
    reads size fs s = some (l.map .char, { s with used := s.avail }) := by
  induction l with
  | nil =>
    intro s fs hf h1 h2 h3 h4 h5 h6
    cases fs with
    | cons => cases hf
    | nil => simp [reads]; cases s; simp at h2 ⊢; exact h2.symm
  | cons c l ih =>
    intro s fs hf h1 h2 h3 h4 h5 h6
    cases fs with
    | nil => cases hf
    | cons f fs =>
      have hne : ¬ s.used = s.avail := by simp at h2; omega
      rw [reads, getc, if_neg hne]
      have hlt : s.used < s.buf.length := by simp at h2; omega
      rw [List.drop_eq_getElem_cons hlt] at h4
      simp only [List.length_cons, List.take_succ_cons, List.cons.injEq] at h4
      have hd : decide (s.buf.length ≤ s.used) = false := decide_eq_false (by omega)
      have hm : (s.used + 1) % 256 = s.used + 1 := Nat.mod_eq_of_lt (by simp at h2; omega)
      have hg : s.buf.getD s.used 0 = c := by rw [List.getD_eq_getElem?_getD, List.getElem?_eq_getElem hlt]; exact h4.1
      simp only [take, hd, hm, hg, Bool.or_false]
      rw [ih { s with used := s.used + 1 } fs (by simpa using hf) h1 (by simp at h2 ⊢; omega) h3 h4.2 h5 h6]
      rfl

theorem prompt_put (f : Bool × Bool) (s : St) : ∃ o, (if f.2 = true then s else put [if f.1 = true then 43 else 62, 32] s) = put o s := by
  split
  · exact ⟨[], by simp [put]⟩
  · exact ⟨_, rfl⟩

section
variable (size : Nat) (hs : 0 < size) (hs' : size ≤ 255)
include hs hs'

/-- A line: whatever keys were typed before the one that ends it, the calls return the edited line and its newline, and leave the
later keys. -/
theorem C44_line_partial (ks rest : List UInt8) (nl : UInt8) (s : St) (fs : List (Bool × Bool)) (hi : Idle size s) (hk : Plain ks) (hn : nl = 10 ∨ nl = 13)
    (hkeys : s.keys = ks ++ nl :: rest) (hf : fs.length = (edited (size - 1) ks).length + 1) :
    ∃ s', reads size fs s = some ((edited (size - 1) ks ++ [10]).map .char, s') ∧ Idle size s' ∧ s'.keys = rest := by
  cases fs with
  | nil => cases hf
  | cons f fs =>
    have hput : ∃ o, (if f.2 = true then s else put [if f.1 = true then 43 else 62, 32] s) = put o s := by
      split
      · exact ⟨[], by simp [put]⟩
      · exact ⟨_, rfl⟩
    obtain ⟨o, ho⟩ := hput
    obtain ⟨s1, e1, h1, _⟩ := loop_rep (inp := f.2) hs' (rest := nl :: rest) hk (start_rep hi o)
    have hkey : key size f.2 10 s1 = (.leave, addc 10 s1) := rfl
    have hl : loop size f.2 (nl :: rest) s1 = some (false, { addc 10 s1 with keys := rest }) := by
      rw [loop]
      rcases hn with rfl | rfl
      · rw [if_neg (by decide), if_neg (by decide), hkey]
      · rw [if_neg (by decide), if_pos rfl, hkey]
    have hfill : fill size f.2 { put o s with used := 0, avail := 0 } = some (false, { addc 10 s1 with keys := rest }) := by
      rw [fill, if_neg (by show ¬ s.unget ≠ 0; rw [hi.none]; decide)]
      show loop size f.2 s.keys _ = _
      rw [hkeys, e1, hl]
    obtain ⟨b1, b2, b3, b4, b5, b6⟩ := newline_rep h1 hs hs'
    have hlen : (edited (size - 1) ks).length ≤ size - 1 := h1.room
    have hr := reads_buf hs' (edited (size - 1) ks ++ [10]) { addc 10 s1 with keys := rest } (f :: fs) (by simpa using hf) b1
      (by show (addc 10 s1).avail = (addc 10 s1).used + _; rw [b2, b4]; simp [edited]) (by show (addc 10 s1).avail ≤ size; rw [b2]; exact Nat.le_trans (Nat.succ_le_succ hlen) (by omega))
      (by show ((addc 10 s1).buf.drop (addc 10 s1).used).take _ = _; rw [b4]; simpa [edited] using b3) b6 b5
    refine ⟨{ addc 10 s1 with keys := rest, used := (addc 10 s1).avail }, ?_, ?_, ?_⟩
    · rw [reads, getc, if_pos hi.done]
      simp only [ho, hfill]
      rw [reads, getc, if_neg (by show ¬ (addc 10 s1).used = (addc 10 s1).avail; rw [b2, b4]; omega)] at hr
      exact hr
    · exact ⟨b1, rfl, b5, b6⟩
    · rfl

/-- Any number of lines. -/
theorem C44_lines_partial (lines : List (List UInt8)) (hk : ∀ ks ∈ lines, Plain ks) (rest : List UInt8) : ∀ (s : St) (fs : List (Bool × Bool)), Idle size s →
    s.keys = lines.flatMap (· ++ [10]) ++ rest → fs.length = (lines.flatMap fun ks => edited (size - 1) ks ++ [10]).length →
    ∃ s', reads size fs s = some ((lines.flatMap fun ks => edited (size - 1) ks ++ [10]).map .char, s') ∧ Idle size s' ∧ s'.keys = rest := by
  have happ : ∀ (f1 f2 : List (Bool × Bool)) (s s1 s2 : St) (r1 r2 : List Res), reads size f1 s = some (r1, s1) → reads size f2 s1 = some (r2, s2) →
      reads size (f1 ++ f2) s = some (r1 ++ r2, s2) := by
    intro f1
    induction f1 with
    | nil => intro f2 s s1 s2 r1 r2 h1 h2; cases h1; exact h2
    | cons f f1 ih =>
      intro f2 s s1 s2 r1 r2 h1 h2
      rw [List.cons_append, reads]
      rw [reads] at h1
      split at h1
      · cases h1
      · rename_i r s' e
        split at h1
        · cases h1
        · rename_i rs s'' e'
          cases h1
          simp only [ih f2 s' _ s2 rs r2 e' h2]
          rfl
  induction lines with
  | nil =>
    intro s fs hi hkeys hf
    cases fs with
    | cons => cases hf
    | nil => exact ⟨s, rfl, hi, hkeys⟩
  | cons ks lines ih =>
    intro s fs hi hkeys hf
    have hk1 := hk ks List.mem_cons_self
    rw [List.flatMap_cons] at hkeys hf ⊢
    obtain ⟨s1, e1, i1, k1⟩ := C44_line_partial size hs hs' ks (lines.flatMap (· ++ [10]) ++ rest) 10 s (fs.take ((edited (size - 1) ks).length + 1)) hi hk1 (.inl rfl)
      (by rw [hkeys]; simp) (by simp at hf ⊢; omega)
    obtain ⟨s2, e2, i2, k2⟩ := ih (fun x hx => hk x (List.mem_cons_of_mem _ hx)) s1 (fs.drop ((edited (size - 1) ks).length + 1)) i1 k1 (by simp at hf ⊢; omega)
    refine ⟨s2, ?_, i2, k2⟩
    have := happ _ _ _ _ _ _ _ e1 e2
    rw [List.take_append_drop] at this
    rw [this, ← List.map_append]

omit hs in
/-- When it echoes, a terminal whose cursor was at the beginning of a line shows the prompt and the edited line, whatever was typed
and erased in between. -/
theorem C44_echo (ks rest : List UInt8) (nl : UInt8) (s : St) (middle : Bool) (hi : Idle size s) (hk : Plain ks) (hn : nl = 10 ∨ nl = 13)
    (hkeys : s.keys = ks ++ nl :: rest) (hr : s.raw = false) (h14 : 14 ∉ ks) :
    ∃ r s' o, getc size middle false s = some (r, s') ∧ s'.out = s.out ++ o ++ [10] ∧
      (o.foldl Term.feed ⟨[], 0⟩).Shows ([if middle then 43 else 62, 32] ++ edited (size - 1) ks) := by
  obtain ⟨s1, e1, h1, g⟩ := loop_rep (inp := false) hs' (rest := nl :: rest) hk (start_rep hi [if middle = true then 43 else 62, 32])
  have hkey : key size false 10 s1 = (.leave, addc 10 s1) := rfl
  have hl : loop size false (nl :: rest) s1 = some (false, { addc 10 s1 with keys := rest }) := by
    rw [loop]
    rcases hn with rfl | rfl
    · rw [if_neg (by decide), if_neg (by decide), hkey]
    · rw [if_neg (by decide), if_pos rfl, hkey]
  have hfill : fill size false { put [if middle = true then 43 else 62, 32] s with used := 0, avail := 0 } = some (false, { addc 10 s1 with keys := rest }) := by
    rw [fill, if_neg (by show ¬ s.unget ≠ 0; rw [hi.none]; decide)]
    show loop size false s.keys _ = _
    rw [hkeys, e1, hl]
  obtain ⟨g1, o, g2, g3⟩ := g hr h14
  refine ⟨(take { addc 10 s1 with keys := rest }).1, (take { addc 10 s1 with keys := rest }).2, [if middle = true then 43 else 62, 32] ++ o, ?_, ?_, ?_⟩
  · rw [getc, if_pos hi.done]
    simp only [Bool.false_eq_true, if_false, hfill]
  · show (addc 10 s1).out = _
    rw [addc_out 10 s1 g1, g2]
    simp [put]
  · rw [List.foldl_append]
    have h0 : Term.Shows ⟨[], 0⟩ [] := ⟨0, rfl⟩
    have hp : ([if middle = true then 43 else 62, 32].foldl Term.feed ⟨[], 0⟩).Shows ([if middle = true then 43 else 62, 32] ++ []) := by
      have a := shows_type h0 (c := if middle = true then 43 else 62) (by split <;> decide)
      have b := shows_type a (c := 32) (by decide)
      simpa using b
    exact g3 _ _ hp

omit hs in
/-- ^C makes the call report the end of the input. -/
theorem C44_interrupt (ks rest : List UInt8) (s : St) (middle : Bool) (hi : Idle size s) (hk : Plain ks) (hkeys : s.keys = ks ++ 3 :: rest) :
    ∃ s', getc size middle false s = some (.eof, s') ∧ s'.keys = rest ∧ s'.unget = 0 := by
  obtain ⟨s1, e1, h1, _⟩ := loop_rep (inp := false) hs' (rest := 3 :: rest) hk (start_rep hi [if middle = true then 43 else 62, 32])
  have hl : loop size false (3 :: rest) s1 = some (true, { (if s1.raw then s1 else put [94, 67, 10] s1) with keys := rest }) := rfl
  have hfill : fill size false { put [if middle = true then 43 else 62, 32] s with used := 0, avail := 0 } =
      some (true, { (if s1.raw then s1 else put [94, 67, 10] s1) with keys := rest }) := by
    rw [fill, if_neg (by show ¬ s.unget ≠ 0; rw [hi.none]; decide)]
    show loop size false s.keys _ = _
    rw [hkeys, e1, hl]
  refine ⟨{ (if s1.raw then s1 else put [94, 67, 10] s1) with keys := rest }, ?_, ?_⟩
  · rw [getc, if_pos hi.done]
    simp only [Bool.false_eq_true, if_false, hfill]
  · refine ⟨rfl, ?_⟩
    show (if s1.raw = true then s1 else put [94, 67, 10] s1).unget = 0
    split <;> exact h1.none

omit hs in
/-- Violation: the line that ^C interrupted is not discarded; the calls after the interrupt return what was typed before it. -/
theorem C44_violated_interrupt (ks rest : List UInt8) (s : St) (middle : Bool) (fs : List (Bool × Bool)) (hi : Idle size s) (hk : Plain ks)
    (hkeys : s.keys = ks ++ 3 :: rest) (hf : fs.length = (edited (size - 1) ks).length) :
    ∃ s', reads size ((middle, false) :: fs) s = some (.eof :: (edited (size - 1) ks).map .char, s') := by
  obtain ⟨s1, e1, h1, _⟩ := loop_rep (inp := false) hs' (rest := 3 :: rest) hk (start_rep hi [if middle = true then 43 else 62, 32])
  have hl : loop size false (3 :: rest) s1 = some (true, { (if s1.raw then s1 else put [94, 67, 10] s1) with keys := rest }) := rfl
  have hfill : fill size false { put [if middle = true then 43 else 62, 32] s with used := 0, avail := 0 } =
      some (true, { (if s1.raw then s1 else put [94, 67, 10] s1) with keys := rest }) := by
    rw [fill, if_neg (by show ¬ s.unget ≠ 0; rw [hi.none]; decide)]
    show loop size false s.keys _ = _
    rw [hkeys, e1, hl]
  have h2 : Rep size { (if s1.raw = true then s1 else put [94, 67, 10] s1) with keys := rest } (edited (size - 1) ks) := by
    have : Rep size (if s1.raw = true then s1 else put [94, 67, 10] s1) (edited (size - 1) ks) := by
      split
      · exact h1
      · exact put_rep h1 _
    exact ⟨this.len, this.avail, this.pre, this.room, this.used, this.none, this.ok⟩
  generalize { (if s1.raw = true then s1 else put [94, 67, 10] s1) with keys := rest } = s2 at h2 hfill
  have hr := reads_buf hs' (edited (size - 1) ks) s2 fs hf h2.len (by rw [h2.used, h2.avail]; simp) (by rw [h2.avail]; exact Nat.le_trans h2.room (Nat.sub_le _ _))
    (by rw [h2.used]; simpa using h2.pre) h2.ok h2.none
  refine ⟨{ s2 with used := s2.avail }, ?_⟩
  rw [reads, getc, if_pos hi.done]
  simp only [Bool.false_eq_true, if_false, hfill, hr]

/-- What holds between calls. -/
structure Inv (s : St) : Prop where
  len : s.buf.length = size
  le : s.used ≤ s.avail
  max : s.avail ≤ size
  ok : s.oob = false

omit hs in
theorem key_inv {inp : Bool} {s : St} {line : List UInt8} (h : Rep size s line) (c : UInt8) : (∃ s', key size inp c s = (.ret, s') ∧ Inv size s') ∨
    (key size inp c s = (.leave, addc 10 s)) ∨ (∃ s' line', key size inp c s = (.again, s') ∧ Rep size s' line') := by
  by_cases h10 : c = 10
  · subst h10; exact .inr (.inl rfl)
  · by_cases h3 : c = 3
    · subst h3
      left
      have h0 : Inv size s := ⟨h.len, by rw [h.used]; exact Nat.zero_le _, by rw [h.avail]; exact Nat.le_trans h.room (Nat.sub_le _ _), h.ok⟩
      cases inp
      · refine ⟨_, rfl, ?_⟩
        split
        · exact h0
        · exact ⟨h0.len, h0.le, h0.max, h0.ok⟩
      · exact ⟨_, rfl, ⟨h0.len, h0.le, h0.max, h0.ok⟩⟩
    · obtain ⟨s', e, h', _⟩ := key_rep (inp := inp) h hs' h10 h3
      exact .inr (.inr ⟨s', _, e, h'⟩)

theorem newline_inv {s : St} {line : List UInt8} (h : Rep size s line) : Inv size (addc 10 s) ∧ (addc 10 s).used < (addc 10 s).avail := by
  obtain ⟨b1, b2, b3, b4, b5, b6⟩ := newline_rep h hs hs'
  have := h.room
  exact ⟨⟨b1, by omega, by omega, b6⟩, by omega⟩

theorem loop_inv {inp : Bool} : ∀ (ks : List UInt8) (s s' : St) (line : List UInt8) (b : Bool), Rep size s line → loop size inp ks s = some (b, s') →
    Inv size s' ∧ (b = false → s'.used < s'.avail) := by
  intro ks
  induction ks with
  | nil => intro s s' line b h e; cases e
  | cons c ks ih =>
    intro s s' line b h e
    rw [loop] at e
    split at e
    · exact ih _ _ _ _ (put_rep h _) e
    · rcases key_inv size hs' (inp := inp) h (if c = 13 then 10 else c) with ⟨s1, e1, i1⟩ | e1 | ⟨s1, l1, e1, i1⟩
      · rw [e1] at e; cases e; exact ⟨⟨i1.len, i1.le, i1.max, i1.ok⟩, fun x => by cases x⟩
      · rw [e1] at e; cases e
        obtain ⟨i1, i2⟩ := newline_inv size hs hs' h
        exact ⟨⟨i1.len, i1.le, i1.max, i1.ok⟩, fun _ => i2⟩
      · rw [e1] at e; exact ih _ _ _ _ i1 e

theorem getc_inv {middle inp : Bool} {s s' : St} {r : Res} (h : Inv size s) (e : getc size middle inp s = some (r, s')) : Inv size s' := by
  have htake : ∀ s : St, Inv size s → s.used < s.avail → Inv size (take s).2 := by
    intro s h hlt
    have hd : decide (s.buf.length ≤ s.used) = false := decide_eq_false (by have := h.len; have := h.max; omega)
    have hm : (s.used + 1) % 256 = s.used + 1 := Nat.mod_eq_of_lt (by have := h.max; omega)
    refine ⟨h.len, ?_, h.max, ?_⟩
    · show (s.used + 1) % 256 ≤ s.avail; omega
    · show (s.oob || decide (s.buf.length ≤ s.used)) = false
      rw [hd, h.ok]; rfl
  rw [getc] at e
  split at e
  · have hp : ∃ o, (if inp = true then s else put [if middle = true then 43 else 62, 32] s) = put o s := prompt_put (middle, inp) s
    obtain ⟨o, ho⟩ := hp
    simp only [ho] at e
    have hrep : ∀ u, u = 0 → Rep size { put o s with used := 0, avail := 0, unget := u } [] := fun u hu => ⟨h.len, rfl, rfl, Nat.zero_le _, rfl, hu, h.ok⟩
    have hfill : ∀ b s', fill size inp { put o s with used := 0, avail := 0 } = some (b, s') → Inv size s' ∧ (b = false → s'.used < s'.avail) := by
      intro b s' e
      rw [fill] at e
      split at e
      · rcases key_inv size hs' (inp := inp) (hrep 0 rfl) (put o s).unget with ⟨s1, e1, i1⟩ | e1 | ⟨s1, l1, e1, i1⟩
        · simp only [e1] at e; cases e; exact ⟨i1, fun x => by cases x⟩
        · simp only [e1] at e; cases e
          obtain ⟨i1, i2⟩ := newline_inv size hs hs' (hrep 0 rfl)
          exact ⟨i1, fun _ => i2⟩
        · simp only [e1] at e; exact loop_inv size hs hs' _ _ _ _ _ i1 e
      · rename_i hu
        have hu : s.unget = 0 := by simpa [put] using hu
        exact loop_inv size hs hs' _ _ _ _ _ (hrep s.unget hu) e
    split at e
    · cases e
    · rename_i e1; cases e; exact (hfill _ _ e1).1
    · rename_i e1; cases e; exact htake _ (hfill _ _ e1).1 ((hfill _ _ e1).2 rfl)
  · rename_i hne
    cases e
    exact htake s h (by have := h.le; omega)

/-- No sequence of keys and calls makes it write or read outside its buffer. -/
theorem C44_bounds (keys : List UInt8) (fs : List (Bool × Bool)) (rs : List Res) (s' : St) (h : reads size fs (St.init size keys) = some (rs, s')) :
    s'.oob = false ∧ s'.avail ≤ size := by
  have go : ∀ (fs : List (Bool × Bool)) (s : St) (rs : List Res) (s' : St), Inv size s → reads size fs s = some (rs, s') → Inv size s' := by
    intro fs
    induction fs with
    | nil => intro s rs s' h e; cases e; exact h
    | cons f fs ih =>
      intro s rs s' h e
      rw [reads] at e
      split at e
      · cases e
      · rename_i e1
        split at e
        · cases e
        · rename_i e2
          cases e
          exact ih _ _ _ (getc_inv size hs hs' h e1) e2
  have := go fs _ rs s' ⟨List.length_replicate, Nat.le_refl _, Nat.zero_le _, rfl⟩ h
  exact ⟨this.ok, this.max⟩

end

/-- The editor starts idle. -/
theorem C44_idle (size : Nat) (keys : List UInt8) : Idle size (St.init size keys) := ⟨List.length_replicate, rfl, rfl, rfl⟩

/-- `x`, `y`, erase, tab, `1`, return: the line is `x 1`. -/
example : Plain [120, 121, 127, 9, 49] ∧ edited 131 [120, 121, 127, 9, 49] = [120, 32, 49] :=
  ⟨by unfold Plain; decide, by decide⟩

/-- The same keys read. -/
example : (reads 132 (List.replicate 4 (false, false)) (St.init 132 [120, 121, 127, 9, 49, 13, 50])).map (fun p => (p.1, p.2.keys)) =
    some ([.char 120, .char 32, .char 49, .char 10], [50]) := by decide +kernel

/-- After `a b ^C`: end of input, then `a`, `b`. -/
example : (reads 80 (List.replicate 3 (false, false)) (St.init 80 [97, 98, 3])).map Prod.fst = some [.eof, .char 97, .char 98] := by decide +kernel

end Snek.Io
