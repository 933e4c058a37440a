import Verif.Proofs.LexFwd
/-!
# C40 String literals denote their characters

`Written q w v` (Spec/Lex): between quotes `q` the characters `w` stand for the string `v`.
-/
namespace Snek.Lex

theorem hex_digit {c : Ch} {a : Nat} (h : HexDigit c a) : hex c = some a ∧ a < 16 ∧ c ≠ 10 := by
  cases h with
  | dec h1 h2 =>
    have : ∀ c : UInt8, 48 ≤ c → c ≤ 57 → hex c = some (c.toNat - 48) ∧ c.toNat - 48 < 16 ∧ c ≠ 10 := forall_byte (by decide +kernel)
    exact this c h1 h2
  | low h1 h2 =>
    have : ∀ c : UInt8, 97 ≤ c → c ≤ 102 → hex c = some (c.toNat - 87) ∧ c.toNat - 87 < 16 ∧ c ≠ 10 := forall_byte (by decide +kernel)
    exact this c h1 h2
  | up h1 h2 =>
    have : ∀ c : UInt8, 65 ≤ c → c ≤ 70 → hex c = some (c.toNat - 55) ∧ c.toNat - 55 < 16 ∧ c ≠ 10 := forall_byte (by decide +kernel)
    exact this c h1 h2

theorem takeWhile_self {l : List Ch} (h : ∀ c ∈ l, c ≠ 0) : l.takeWhile (· ≠ 0) = l := by
  induction l with
  | nil => rfl
  | cons c l ih =>
    rw [List.takeWhile_cons_of_pos (by simpa using h c (by simp)), ih fun d hd => h d (by simp [hd])]

/-- What one written character does to the loop. -/
theorem strLoop_step {C : Cfg} {q : Ch} {s s1 : St} {r : Ch} {l : List Ch} {c : Ch} (hp : s.pend = r :: l) (hq : r ≠ q) (h10 : r ≠ 10)
    (he : (if r = 92 then escape (lexchar s).2 else (some r, (lexchar s).2)) = (some c, s1)) (ht : s1.text = s.text) (k : Nat) :
    strLoop C q (k + 1) s =
      if s.text.length = C.maxTok then some (.invalid, s1) else strLoop C q k { s1 with text := s.text ++ [c] } := by
  rw [strLoop]
  obtain ⟨h1, -, -, -⟩ := lexchar_cons hp h10
  simp only [h1, if_neg hq, if_neg h10, he]
  unfold addToken
  rw [ht]
  by_cases hm : s.text.length = C.maxTok
  · simp [hm]
  · simp [hm]

/-- The string loop on written characters: the string if it fits, an error token otherwise. -/
theorem strLoop_fwd (C : Cfg) (q : Ch) (hq92 : q ≠ 92) {w v : List Ch} (hw : Written q w v) : ∀ (s : St) (rest : List Ch),
    s.pend = w ++ q :: rest → s.text.length ≤ C.maxTok → q ≠ 10 → (∀ c ∈ s.text, c ≠ 0) →
    ∃ k s', strLoop C q k s = some (if s.text.length + v.length ≤ C.maxTok then .string (s.text ++ v) else .invalid, s') ∧ Same s s' ∧
      (s.text.length + v.length ≤ C.maxTok → s'.pend = rest) := by
  have step : ∀ {s : St} {r : Ch} {l w v rest : List Ch} {c : Ch} {s1 : St},
      (∀ (s : St) (rest : List Ch), s.pend = w ++ q :: rest → s.text.length ≤ C.maxTok → q ≠ 10 → (∀ c ∈ s.text, c ≠ 0) →
        ∃ k s', strLoop C q k s = some (if s.text.length + v.length ≤ C.maxTok then .string (s.text ++ v) else .invalid, s') ∧ Same s s' ∧
          (s.text.length + v.length ≤ C.maxTok → s'.pend = rest)) →
      s.pend = r :: l → r ≠ q → r ≠ 10 → s.text.length ≤ C.maxTok → q ≠ 10 → (∀ c ∈ s.text, c ≠ 0) → c ≠ 0 →
      (if r = 92 then escape (lexchar s).2 else (some r, (lexchar s).2)) = (some c, s1) → s1.text = s.text → s1.pend = w ++ q :: rest →
      Same s s1 →
      ∃ k s', strLoop C q k s = some (if s.text.length + (c :: v).length ≤ C.maxTok then .string (s.text ++ c :: v) else .invalid, s') ∧ Same s s' ∧
        (s.text.length + (c :: v).length ≤ C.maxTok → s'.pend = rest) := by
    intro s r l w v rest c s1 ih hp hrq hr10 hl hq10 hnz hc0 he ht1 hp1 hsame
    by_cases hfull : s.text.length = C.maxTok
    · refine ⟨1, s1, ?_, hsame, fun h => ?_⟩
      · rw [strLoop_step hp hrq hr10 he ht1, if_pos hfull, if_neg (by simp; omega)]
      · simp only [List.length_cons] at h; omega
    · obtain ⟨k, s', g1, g2, g3⟩ := ih { s1 with text := s.text ++ [c] } rest hp1 (by simp; omega) hq10 (by
        intro d hd
        rcases List.mem_append.1 hd with h | h
        · exact hnz d h
        · simp only [List.mem_singleton] at h; rw [h]; exact hc0)
      simp only [List.length_append, List.length_cons, List.length_nil, List.append_assoc, List.singleton_append] at g1 g3
      refine ⟨k + 1, s', ?_, Same.trans hsame ⟨g2.mid, g2.exd, g2.line, g2.cur, g2.ind, g2.ign⟩, fun h => g3 (by simp only [List.length_cons] at h; omega)⟩
      rw [strLoop_step hp hrq hr10 he ht1, if_neg hfull, g1]
      simp only [List.length_cons, Nat.add_assoc, Nat.add_comm 1]
  induction hw with
  | nil =>
    intro s rest hp hl hq10 hnz
    obtain ⟨h1, h2, h3, h4⟩ := lexchar_cons (s := s) (c := q) (l := rest) hp hq10
    refine ⟨1, (lexchar s).2, ?_, h4, fun _ => h2⟩
    rw [strLoop]
    simp only [h1, if_true, h3, List.length_nil, Nat.add_zero, hl, List.append_nil]
    congr 2
    exact congrArg Tok.string (takeWhile_self hnz)
  | @plain c w v h1 h2 h3 h4 _ ih =>
    intro s rest hp hl hq10 hnz
    obtain ⟨g1, g2, g3, g4⟩ := lexchar_cons (s := s) (c := c) (l := w ++ q :: rest) hp h2
    exact step ih hp h1 h2 hl hq10 hnz h4 (by rw [if_neg h3]) g3 g2 g4
  | @nl w v _ ih =>
    intro s rest hp hl hq10 hnz
    obtain ⟨g1, g2, g3, g4⟩ := lexchar_cons (s := s) (c := 92) (l := 110 :: w ++ q :: rest) hp (by decide)
    obtain ⟨f1, f2, f3, f4⟩ := lexchar_cons (s := (lexchar s).2) (c := 110) (l := w ++ q :: rest) g2 (by decide)
    refine step ih hp (Ne.symm hq92) (by decide) hl hq10 hnz (by decide) ?_ (f3.trans g3) f2 (g4.trans f4)
    rw [if_pos rfl]; unfold escape; simp only [f1]; rfl
  | @cr w v _ ih =>
    intro s rest hp hl hq10 hnz
    obtain ⟨g1, g2, g3, g4⟩ := lexchar_cons (s := s) (c := 92) (l := 114 :: w ++ q :: rest) hp (by decide)
    obtain ⟨f1, f2, f3, f4⟩ := lexchar_cons (s := (lexchar s).2) (c := 114) (l := w ++ q :: rest) g2 (by decide)
    refine step ih hp (Ne.symm hq92) (by decide) hl hq10 hnz (by decide) ?_ (f3.trans g3) f2 (g4.trans f4)
    rw [if_pos rfl]; unfold escape; simp only [f1]; rfl
  | @tab w v _ ih =>
    intro s rest hp hl hq10 hnz
    obtain ⟨g1, g2, g3, g4⟩ := lexchar_cons (s := s) (c := 92) (l := 116 :: w ++ q :: rest) hp (by decide)
    obtain ⟨f1, f2, f3, f4⟩ := lexchar_cons (s := (lexchar s).2) (c := 116) (l := w ++ q :: rest) g2 (by decide)
    refine step ih hp (Ne.symm hq92) (by decide) hl hq10 hnz (by decide) ?_ (f3.trans g3) f2 (g4.trans f4)
    rw [if_pos rfl]; unfold escape; simp only [f1]; rfl
  | @hex c d a b w v hc hd ha hab _ ih =>
    intro s rest hp hl hq10 hnz
    obtain ⟨c1, c2, c3⟩ := hex_digit hc
    obtain ⟨d1, d2, d3⟩ := hex_digit hd
    obtain ⟨g1, g2, g3, g4⟩ := lexchar_cons (s := s) (c := 92) (l := 120 :: c :: d :: w ++ q :: rest) hp (by decide)
    obtain ⟨f1, f2, f3, f4⟩ := lexchar_cons (s := (lexchar s).2) (c := 120) (l := c :: d :: w ++ q :: rest) g2 (by decide)
    obtain ⟨e1, e2, e3, e4⟩ := lexchar_cons (s := (lexchar (lexchar s).2).2) (c := c) (l := d :: w ++ q :: rest) f2 c3
    obtain ⟨i1, i2, i3, i4⟩ := lexchar_cons (s := (lexchar (lexchar (lexchar s).2).2).2) (c := d) (l := w ++ q :: rest) e2 d3
    have hne : UInt8.ofNat (16 * a + b) ≠ 0 := by
      intro h
      have := congrArg UInt8.toNat h
      simp at this
      omega
    refine step ih hp (Ne.symm hq92) (by decide) hl hq10 hnz hne ?_ (i3.trans (e3.trans (f3.trans g3))) i2 (g4.trans (f4.trans (e4.trans i4)))
    rw [if_pos rfl]; unfold escape; simp only [f1, e1, i1, c1, d1, ha, if_true]
    rw [Nat.mul_comm 16 a]; rfl
  | @esc c w v h1 h2 h3 h4 h5 h6 _ ih =>
    intro s rest hp hl hq10 hnz
    obtain ⟨g1, g2, g3, g4⟩ := lexchar_cons (s := s) (c := 92) (l := c :: w ++ q :: rest) hp (by decide)
    obtain ⟨f1, f2, f3, f4⟩ := lexchar_cons (s := (lexchar s).2) (c := c) (l := w ++ q :: rest) g2 h5
    refine step ih hp (Ne.symm hq92) (by decide) hl hq10 hnz h6 ?_ (f3.trans g3) f2 (g4.trans f4)
    rw [if_pos rfl]; unfold escape; simp only [f1, if_neg h1, if_neg h2, if_neg h3, if_neg h4]

/-- A string literal between single or double quotes is read as the string it stands for, and reading stops after the closing quote. -/
theorem C40_literal (C : Cfg) (s : St) (hs : Ready s) (q : Ch) (hq : q = 34 ∨ q = 39) (w v rest : List Ch) (hw : Written q w v)
    (hp : s.pend = q :: w ++ q :: rest) (hm : 0 < C.maxTok) (hlen : v.length ≤ C.maxTok) :
    ∃ s', Lexes C s (.string v) s' ∧ s'.pend = rest ∧ Stays s s' s.ign := by
  have htok : ∀ k s1, token C k q s1 = string C k q s1 := by intro k s1; rcases hq with rfl | rfl <;> simp [token]
  refine lexes_start hm hs (c := q) (l := w ++ q :: rest) hp ?_ ?_ ?_ ?_ ?_
  iterate 4 rcases hq with rfl | rfl <;> decide
  intro s1 h1 h2 h3
  obtain ⟨k, s', g1, g2, g3⟩ := strLoop_fwd C q (by rcases hq with rfl | rfl <;> decide) hw (startToken s1) rest h1 (Nat.zero_le _)
    (by rcases hq with rfl | rfl <;> decide) (by simp [startToken])
  have e : (startToken s1).text.length + v.length ≤ C.maxTok := by simpa [startToken] using hlen
  refine ⟨k, s', ?_, g3 e, ?_⟩
  · rw [htok, string, g1, if_pos e]; simp [startToken]
  · rw [← h3]; exact ⟨g2.mid, g2.exd, g2.line, g2.cur, g2.ind, g2.ign⟩

/-- A literal for a string that is too long is an error, never a shortened string. -/
theorem C40_toolong (C : Cfg) (s : St) (hs : Ready s) (q : Ch) (hq : q = 34 ∨ q = 39) (w v rest : List Ch) (hw : Written q w v)
    (hp : s.pend = q :: w ++ q :: rest) (hm : 0 < C.maxTok) (hlen : C.maxTok < v.length) :
    ∃ s', Lexes C s .invalid s' := by
  have htok : ∀ k s1, token C k q s1 = string C k q s1 := by intro k s1; rcases hq with rfl | rfl <;> simp [token]
  obtain ⟨s1, h1, h2, h3, h4⟩ := lex_start (C := C) hs (c := q) (l := w ++ q :: rest) hp (by rcases hq with rfl | rfl <;> decide)
    (by rcases hq with rfl | rfl <;> decide) (by rcases hq with rfl | rfl <;> decide) (by rcases hq with rfl | rfl <;> decide) hm
  obtain ⟨k, s', g1, g2, g3⟩ := strLoop_fwd C q (by rcases hq with rfl | rfl <;> decide) hw (startToken s1) rest h2 (Nat.zero_le _)
    (by rcases hq with rfl | rfl <;> decide) (by simp [startToken])
  refine ⟨s', .of (k := k + 1) ?_⟩
  rw [h4, htok, string, g1, if_neg (by simp [startToken]; omega)]

/-- Every string without NUL characters has a literal. -/
theorem C40_writable (q : Ch) (hq : q = 34 ∨ q = 39) (v : List Ch) (hv : ∀ c ∈ v, c ≠ 0) : Written q (writeString q v) v := by
  induction v with
  | nil => exact .nil
  | cons c v ih =>
    have ih := ih fun d hd => hv d (by simp [hd])
    have h0 := hv c (by simp)
    unfold writeString
    split
    · rename_i h; subst h; exact .nl ih
    · split
      · rename_i h10 h
        have : c = 92 ∨ c = 34 ∨ c = 39 := by rcases hq with rfl | rfl <;> rcases h with rfl | rfl <;> simp
        refine .esc ?_ ?_ ?_ ?_ h10 h0 ih <;> rcases this with rfl | rfl | rfl <;> decide
      · rename_i h10 h
        simp only [not_or] at h
        exact .plain h.2 h10 h.1 h0 ih

/-- Writing any string and reading it back gives the same string. -/
theorem C40_roundtrip (C : Cfg) (s : St) (hs : Ready s) (q : Ch) (hq : q = 34 ∨ q = 39) (v rest : List Ch) (hv : ∀ c ∈ v, c ≠ 0)
    (hp : s.pend = q :: writeString q v ++ q :: rest) (hm : 0 < C.maxTok) (hlen : v.length ≤ C.maxTok) :
    ∃ s', Lexes C s (.string v) s' ∧ s'.pend = rest ∧ Stays s s' s.ign :=
  C40_literal C s hs q hq _ v rest (C40_writable q hq v hv) hp hm hlen

/-- `"\x80"` is rejected and `"a\x00b"` is the string `a`. -/
theorem C40_violated_hex :
    (lex ⟨false, 255, true⟩ 300 { St.init [34, 92, 120, 56, 48, 34, 10] with mid := true }).map Prod.fst = some .invalid ∧
    (lex ⟨false, 255, true⟩ 300 { St.init [34, 97, 92, 120, 48, 48, 98, 34, 10] with mid := true }).map Prod.fst = some (.string [97]) := by
  decide +kernel

/-! `'it\'s\x41\n'` -/

example : Written 39 [105, 116, 92, 39, 115, 92, 120, 52, 49, 92, 110] [105, 116, 39, 115, 65, 10] := by
  refine .plain (by decide) (by decide) (by decide) (by decide) (.plain (by decide) (by decide) (by decide) (by decide)
    (.esc (by decide) (by decide) (by decide) (by decide) (by decide) (by decide) (.plain (by decide) (by decide) (by decide) (by decide) ?_)))
  exact .hex (a := 4) (b := 1) (.dec 52 (by decide) (by decide)) (.dec 49 (by decide) (by decide)) (by decide) (by decide) (.nl .nil)

end Snek.Lex
