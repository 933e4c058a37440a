import Verif.Model.PutGet
import Verif.Props.C47
/-!
# C94: the program that is put on a device is the one in the editor, and getting it shows it again
-/
namespace Snek.PutGet
open Spec.Eeprom Snek.Eeprom

/-- A character that a keyboard writes into a program: printable ASCII, or a newline. -/
def Plain (c : Char) : Prop := (32 ≤ c.toNat ∧ c.toNat ≤ 126) ∨ c = '\n'

instance (c : Char) : Decidable (Plain c) := by unfold Plain; infer_instance

theorem enq_strip (lim : Nat) : ∀ (l : List UInt8) (sent : Nat), (5 : UInt8) ∉ l → (enq lim sent l).filter (· ≠ 5) = l
  | [], _, _ => rfl
  | b :: l, sent, h => by
    simp only [List.mem_cons, not_or] at h
    simp only [enq]
    split
    · have := enq_strip lim l 0 h.2
      rw [List.filter_cons_of_pos (by simpa using Ne.symm h.1), List.filter_cons_of_neg (by simp), this]
    · have := enq_strip lim l (sent + 1) h.2
      rw [List.filter_cons_of_pos (by simpa using Ne.symm h.1), this]

/-- A byte that is not an ENQ divides what is sent as it divides the text. -/
theorem strip_split {k x y : List UInt8} {b : UInt8} (h : k.filter (· ≠ 5) = x ++ b :: y) :
    ∃ k1 k2, k = k1 ++ b :: k2 ∧ k1.filter (· ≠ 5) = x ∧ k2.filter (· ≠ 5) = y := by
  rw [List.filter_eq_append_iff] at h
  obtain ⟨a1, a2, rfl, h1, h2⟩ := h
  rw [List.filter_eq_cons_iff] at h2
  obtain ⟨c1, c2, rfl, h3, _, h4⟩ := h2
  refine ⟨a1 ++ c1, c2, by simp, ?_, h4⟩
  rw [List.filter_append, h1, List.filter_eq_nil_iff.2 h3, List.append_nil]

theorem head_no5 : (5 : UInt8) ∉ command (ascii "eeprom.write()\n") [3] := by decide
theorem tail_no5 : (5 : UInt8) ∉ command (ascii "reset()\n") [] := by decide

/-- What follows the command line `eeprom.write()`, whatever the writer had sent before: the device stores exactly the bytes of the text in the editor
and reads on with `reset()`. Missing: texts that the store has no room for, and that contain control-D or control-E, or the carriage
returns that become newlines; see below. -/
theorem C94_put_partial (N lim sent : Nat) (t : Text) (mem : List UInt8) (hm : mem.length = N) (hb : blank t = false)
    (h4 : (4 : UInt8) ∉ encode t) (h5 : (5 : UInt8) ∉ encode t) (h13 : (13 : UInt8) ∉ encode t) (h255 : (255 : UInt8) ∉ encode t)
    (hl : (encode t).length < N) :
    ∃ line rest w, enq lim sent (put t) = line ++ 10 :: rest ∧ line.filter (· ≠ 5) = [14, 3] ++ ascii "eeprom.write()" ∧
      Eeprom.write N rest 0 mem [] = some w ∧ w.done = true ∧ w.mem.length = N ∧ load N w.mem 0 = some (encode t) ∧
      w.rest.filter (· ≠ 5) = [14] ++ ascii "reset()\n" := by
  have hp : put t = ([14, 3] ++ ascii "eeprom.write()") ++ 10 :: (encode t ++ 4 :: ([14] ++ ascii "reset()\n")) := by
    have e1 : command (ascii "eeprom.write()\n") [3] = ([14, 3] ++ ascii "eeprom.write()") ++ [10] := by decide
    have e2 : command (ascii "reset()\n") [] = [14] ++ ascii "reset()\n" := by decide
    simp only [put, hb, Bool.false_eq_true, if_false, e1, e2]
    simp
  have h5' : (5 : UInt8) ∉ put t := by
    rw [hp]
    have a : (5 : UInt8) ∉ [14, 3] ++ ascii "eeprom.write()" := by decide
    have b : (5 : UInt8) ∉ [14] ++ ascii "reset()\n" := by decide
    simp only [List.mem_append, List.mem_cons, not_or] at a b ⊢
    exact ⟨a, by decide, h5, by decide, b⟩
  have hs := enq_strip lim (put t) sent h5'
  rw [hp] at hs
  obtain ⟨line, rest, hk, hline, hrest⟩ := strip_split hs
  obtain ⟨k1, k2, rfl, ht1, ht2⟩ := strip_split hrest
  have hty : typed k1 = encode t := by
    unfold typed
    have : (k1.filter (· ≠ 5)) = encode t := ht1
    rw [this]
    conv => rhs; rw [← List.map_id (encode t)]
    apply List.map_congr_left
    intro k hk
    have hne : k ≠ 13 := by intro h; subst h; exact h13 hk
    simp [hne]
  obtain ⟨w, h1, h2, h3, h6, h7⟩ := C47_roundtrip N k1 mem hm k2
    (by rw [hty]; intro c hc; exact ⟨by intro h; subst h; exact h4 hc, by intro h; subst h; exact h255 hc⟩) (by rw [hty]; exact hl)
  exact ⟨line, k1 ++ 4 :: k2, w, by rw [hp]; exact hk, hline, h1, h2, h6, by rw [h7, hty], by rw [h3]; exact ht2⟩

/-- What the editor shows of a byte of the stored program. -/
def shown (b : UInt8) : Text := if b = 10 ∨ (32 ≤ b ∧ b < 128) then [Char.ofNat b.toNat] else []

theorem recv_program (m : Mon) (hg : m.getting = true) : ∀ (p : List UInt8), (2 : UInt8) ∉ p → (3 : UInt8) ∉ p →
    (uart p).foldl receive m = { m with edit := m.edit ++ p.flatMap shown } := by
  intro p
  induction p generalizing m with
  | nil => intro _ _; simp [uart]
  | cons b p ih =>
    intro h2 h3
    simp only [List.mem_cons, not_or] at h2 h3
    have step : (if b = 10 then [13, 10] else [b]).foldl receive m = { m with edit := m.edit ++ shown b } := by
      by_cases hb : b = 10
      · subst hb
        simp [receive, shown, decode1, hg]
      · rw [if_neg hb]
        simp only [List.foldl_cons, List.foldl_nil, receive, if_neg (Ne.symm h2.1), if_neg (Ne.symm h3.1), shown, decode1, hg, if_true]
        by_cases h32 : b < 32
        · have hn : ¬ (b = 10 ∨ (32 ≤ b ∧ b < 128)) := by
            rintro (h | ⟨h, _⟩)
            · exact hb h
            · exact absurd h32 (UInt8.not_lt.2 h)
          have hm' : m = { getting := true, edit := m.edit ++ [], repl := m.repl } := by cases m; simp at hg; simp [hg]
          rw [if_neg hn, if_pos (And.intro h32 hb), ite_self, ite_self]
          exact hm'
        · have hge : 32 ≤ b := UInt8.not_lt.1 h32
          have h6 : b ≠ 6 := fun h => by subst h; exact absurd hge (by decide)
          have h20 : b ≠ 0x14 := fun h => by subst h; exact absurd hge (by decide)
          rw [if_neg h6, if_neg h20, if_neg (fun h => h32 h.1)]
          by_cases h128 : b < 128
          · rw [if_pos h128, if_pos (.inr ⟨hge, h128⟩)]
          · rw [if_neg h128, if_neg (fun h => h.elim hb (fun h => h128 h.2))]
    have : (uart (b :: p)) = (if b = 10 then [13, 10] else [b]) ++ uart p := by simp [uart]
    rw [this, List.foldl_append, step, ih { m with edit := m.edit ++ shown b } hg h2.2 h3.2]
    simp

theorem recv_other : ∀ (o : List UInt8) (m : Mon), (2 : UInt8) ∉ o → m.getting = false →
    (o.foldl receive m).edit = m.edit ∧ (o.foldl receive m).getting = false
  | [], _, _, hg => ⟨rfl, hg⟩
  | b :: o, m, h, hg => by
    simp only [List.mem_cons, not_or] at h
    have hs : (receive m b).edit = m.edit ∧ (receive m b).getting = false := by
      unfold receive
      rw [if_neg (Ne.symm h.1)]
      repeat' split
      all_goals simp_all
    have := recv_other o (receive m b) h.2 hs.2
    exact ⟨this.1.trans hs.1, this.2⟩

/-- Getting: whatever the device prints before and after it, the editor shows the printable ASCII characters and the newlines of the stored program, in
order, and nothing else. -/
theorem C94_get (N : Nat) (mem : List UInt8) (hm : mem.length = N) (m : Mon) (hg : m.getting = false) (p before behind : List UInt8)
    (hp : load N mem 0 = some p) (h2 : (2 : UInt8) ∉ p) (h3 : (3 : UInt8) ∉ p) (hb : (2 : UInt8) ∉ before) (ha : (2 : UInt8) ∉ behind) :
    ∃ out, show_ N true mem = some out ∧ (get m (before ++ uart out ++ behind)).edit = p.flatMap shown ∧
      (get m (before ++ uart out ++ behind)).getting = false := by
  refine ⟨[2] ++ p ++ [3], by rw [(C47_show N mem hm).2, hp]; rfl, ?_⟩
  have hu : uart ([2] ++ p ++ [3]) = [2] ++ uart p ++ [3] := by simp [uart]
  rw [hu]
  unfold get
  simp only [List.foldl_append]
  obtain ⟨e1, e2⟩ := recv_other before { m with edit := [] } hb hg
  generalize hm1 : before.foldl receive { m with edit := [] } = m1 at e1 e2
  have s2 : [2].foldl receive m1 = { m1 with getting := true } := by simp [receive]
  rw [s2, recv_program _ rfl p h2 h3]
  generalize hm2 : ({ m1 with getting := true, edit := m1.edit ++ p.flatMap shown } : Mon) = m2
  have s3 : [3].foldl receive m2 = { m2 with getting := false } := by simp [receive]
  rw [s3]
  obtain ⟨f1, f2⟩ := recv_other behind { m2 with getting := false } ha rfl
  refine ⟨?_, f2⟩
  rw [f1, ← hm2]
  simp [e1]

theorem plain_lt {c : Char} (h : Plain c) : c.toNat < 128 := by
  rcases h with h | rfl
  · omega
  · decide

theorem encode_plain {c : Char} (h : Plain c) : String.utf8EncodeChar c = [c.toNat.toUInt8] := by
  have hl := plain_lt h
  unfold String.utf8EncodeChar
  have : c.val.toNat ≤ 127 := by have : c.val.toNat = c.toNat := rfl; omega
  simp only [this, if_true]
  rfl

theorem shown_plain {c : Char} (h : Plain c) : shown c.toNat.toUInt8 = [c] := by
  have hl := plain_lt h
  have ht : c.toNat.toUInt8.toNat = c.toNat := by
    rw [Nat.toUInt8, UInt8.toNat_ofNat']; omega
  unfold shown
  rw [if_pos, ht, Char.ofNat_toNat]
  rcases h with h | rfl
  · right
    constructor
    · rw [UInt8.le_iff_toNat_le, ht]; exact h.1
    · rw [UInt8.lt_iff_toNat_lt, ht]; exact hl
  · left; decide

theorem plain_mem {t : Text} (h : ∀ c ∈ t, Plain c) {b : UInt8} (hb : b ∈ encode t) : b = 10 ∨ (32 ≤ b.toNat ∧ b.toNat ≤ 126) := by
  unfold encode at hb
  rw [List.mem_flatMap] at hb
  obtain ⟨c, hc, hb⟩ := hb
  rw [encode_plain (h c hc), List.mem_singleton] at hb
  subst hb
  have hl := plain_lt (h c hc)
  have ht : c.toNat.toUInt8.toNat = c.toNat := by
    rw [Nat.toUInt8, UInt8.toNat_ofNat']; omega
  rcases h c hc with h | rfl
  · right; rw [ht]; exact h
  · left; decide

theorem shown_encode : ∀ (t : Text), (∀ c ∈ t, Plain c) → (encode t).flatMap shown = t
  | [], _ => rfl
  | c :: t, h => by
    have e : encode (c :: t) = [c.toNat.toUInt8] ++ encode t := by
      simp only [encode, List.flatMap_cons, encode_plain (h c (by simp))]
    rw [e, List.flatMap_append, shown_encode t (fun x hx => h x (by simp [hx]))]
    simp [shown_plain (h c (by simp))]

/-- Putting and then getting: for a text of printable ASCII characters and newlines that the store has room for, the editor shows the same text again,
whatever the store held, however the writer divided it and whatever else the device prints. Missing: all other texts, see below. -/
theorem C94_roundtrip_partial (N lim sent : Nat) (t : Text) (mem : List UInt8) (hm : mem.length = N) (hb : blank t = false)
    (ht : ∀ c ∈ t, Plain c) (hl : t.length < N) (m : Mon) (hg : m.getting = false) (before behind : List UInt8)
    (h1 : (2 : UInt8) ∉ before) (h2 : (2 : UInt8) ∉ behind) :
    ∃ line rest w out, enq lim sent (put t) = line ++ 10 :: rest ∧ line.filter (· ≠ 5) = [14, 3] ++ ascii "eeprom.write()" ∧
      Eeprom.write N rest 0 mem [] = some w ∧ w.done = true ∧ show_ N true w.mem = some out ∧
      (get m (before ++ uart out ++ behind)).edit = t := by
  have hno : ∀ b : UInt8, b ≠ 10 → (b.toNat < 32 ∨ 126 < b.toNat) → b ∉ encode t := by
    intro b hb1 hb2 hmem
    rcases plain_mem ht hmem with h | h
    · exact hb1 h
    · omega
  have hlen : ∀ u : Text, (∀ c ∈ u, Plain c) → (encode u).length = u.length := by
    intro u
    induction u with
    | nil => intro _; rfl
    | cons c u ih =>
      intro h
      have := ih (fun x hx => h x (by simp [hx]))
      have e : encode (c :: u) = [c.toNat.toUInt8] ++ encode u := by
        simp only [encode, List.flatMap_cons, encode_plain (h c (by simp))]
      rw [e, List.length_append, this]; simp; omega
  obtain ⟨line, rest, w, a1, a2, a3, a4, a5, a6, _⟩ := C94_put_partial N lim sent t mem hm hb (hno 4 (by decide) (by decide)) (hno 5 (by decide) (by decide))
    (hno 13 (by decide) (by decide)) (hno 255 (by decide) (by decide)) (by rw [hlen t ht]; exact hl)
  obtain ⟨out, b1, b2, _⟩ := C94_get N w.mem a5 m hg (encode t) before behind a6 (hno 2 (by decide) (by decide)) (hno 3 (by decide) (by decide)) h1 h2
  exact ⟨line, rest, w, out, a1, a2, a3, a4, b1, by rw [b2, shown_encode t ht]⟩

/-- A program of two lines, a store of 64 bytes, a monitor with a prompt. -/
example : blank "if a:\n    b = 1\n".toList = false ∧ (∀ c ∈ "if a:\n    b = 1\n".toList, Plain c) ∧ (enq 16 9 (put "if a:\n    b = 1\n".toList)).length = 46 ∧
    (get ⟨false, "old".toList, "> ".toList⟩ (ascii "eeprom.show(1)\n" ++ uart ([2] ++ encode "if a:\n    b = 1\n".toList ++ [3]) ++ ascii "> ")).edit =
      "if a:\n    b = 1\n".toList := by decide +kernel

/-- A tab is stored and is not shown: the program that is got back is another one. -/
theorem C94_violated_tab :
    (get ⟨false, [], []⟩ (uart ([2] ++ encode "if a:\n\tb = 1\n".toList ++ [3]))).edit = "if a:\nb = 1\n".toList := by decide +kernel

theorem shown_high {b : UInt8} (h : 128 ≤ b.toNat) : shown b = [] := by
  unfold shown
  rw [if_neg]
  rintro (rfl | ⟨_, h2⟩)
  · exact absurd h (by decide)
  · rw [UInt8.lt_iff_toNat_lt] at h2
    have : (128 : UInt8).toNat = 128 := rfl
    omega

/-- No character beyond ASCII is shown, since each of its bytes is decoded by itself. -/
theorem C94_violated_accent (c : Char) (hc : 128 ≤ c.toNat) : (encode [c]).flatMap shown = [] := by
  have h1 : ∀ n, shown (UInt8.ofNat (n % 64 + 128)) = [] := fun n => shown_high (by rw [UInt8.toNat_ofNat']; omega)
  have h2 : ∀ n, shown (UInt8.ofNat (n % 32 + 192)) = [] := fun n => shown_high (by rw [UInt8.toNat_ofNat']; omega)
  have h3 : ∀ n, shown (UInt8.ofNat (n % 16 + 224)) = [] := fun n => shown_high (by rw [UInt8.toNat_ofNat']; omega)
  have h4 : ∀ n, shown (UInt8.ofNat (n % 8 + 240)) = [] := fun n => shown_high (by rw [UInt8.toNat_ofNat']; omega)
  have hv : ¬ c.val.toNat ≤ 127 := by have : c.val.toNat = c.toNat := rfl; omega
  simp only [encode, List.flatMap_cons, List.flatMap_nil, List.append_nil]
  unfold String.utf8EncodeChar
  simp only [hv, if_false]
  split
  · simp only [List.flatMap_cons, List.flatMap_nil, h1, h2, List.append_nil]
  · split
    · simp only [List.flatMap_cons, List.flatMap_nil, h1, h3, List.append_nil]
    · simp only [List.flatMap_cons, List.flatMap_nil, h1, h4, List.append_nil]

/-- A program that consists of white space is not put: the old one stays. -/
theorem C94_violated_blank : put "\n".toList = [] := by decide

end Snek.PutGet
