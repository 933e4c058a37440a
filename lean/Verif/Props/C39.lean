import Verif.Proofs.LexFwd
/-!
# C39 Keyword operators respect word boundaries

`Word w`: an identifier or keyword; `EndsWord c`: a character that cannot be part of one (Spec/Lex). `kwOf` is the keyword table.
The text after the place in question contains a newline (as source lines do) and no NUL.
-/
namespace Snek.Lex

/-- The token of a word other than `is` and `not`. -/
def wordTok (w : List Ch) : Tok :=
  match kwOf w with
  | some k => .kw k
  | none => .name w

theorem token_word {c : Ch} (h : isName c true = true) (C : Cfg) (k : Nat) (s : St) : token C k c s = word C k c s := by
  have hdig : ∀ x : UInt8, isName x true = true → ¬ (x = 0) ∧ ¬ (x = 58) ∧ ¬ (x = 59) ∧ ¬ (x = 44) ∧ ¬ (x = 40) ∧ ¬ (x = 41) ∧ ¬ (x = 91) ∧ ¬ (x = 93) ∧
      ¬ (x = 123) ∧ ¬ (x = 125) ∧ ¬ (x = 43) ∧ ¬ (x = 45) ∧ ¬ (x = 42) ∧ ¬ (x = 47) ∧ ¬ (x = 37) ∧ ¬ (x = 38) ∧ ¬ (x = 124) ∧ ¬ (x = 126) ∧
      ¬ (x = 94) ∧ ¬ (x = 60) ∧ ¬ (x = 61) ∧ ¬ (x = 62) ∧ ¬ (x = 33) ∧ ¬ (x = 34 ∨ x = 39) ∧ ¬ ((48 ≤ x ∧ x ≤ 57) ∨ x = 46) := forall_byte (by decide +kernel)
  obtain ⟨a1, a2, a3, a4, a5, a6, a7, a8, a9, b1, b2, b3, b4, b5, b6, b7, b8, b9, c1, c2, c3, c4, c5, c6, c7⟩ := hdig c h
  unfold token
  simp only [a1, a2, a3, a4, a5, a6, a7, a8, a9, b1, b2, b3, b4, b5, b6, b7, b8, b9, c1, c2, c3, c4, c5, c6, c7, decide_false, Bool.and_false,
    Bool.false_eq_true, if_false]

theorem name_start {c : Ch} (h : isName c true = true) : c ≠ 0 ∧ c ≠ 10 ∧ c ≠ 35 ∧ c ≠ 32 := by
  have : ∀ x : UInt8, isName x true = true → x ≠ 0 ∧ x ≠ 10 ∧ x ≠ 35 ∧ x ≠ 32 := forall_byte (by decide +kernel)
  exact this c h

/-- The characters of a word are collected up to the first other character. -/
theorem word_text {w : List Ch} (hw : Word w) : ∃ c l, w = c :: l ∧ isName c true = true ∧ ∀ x ∈ l, isName x false = true := by
  obtain ⟨c, l, h1, h2, h3⟩ := hw
  exact ⟨c, l, h1, (isName_first c).2 h2, fun x hx => (isName_rest x).2 (h3 x hx)⟩

theorem EndsWord.stop {c : Ch} (h : EndsWord c) : c ≠ 0 ∧ isName c false = false :=
  ⟨h.1, by rw [Bool.eq_false_iff]; exact fun hn => h.2 ((isName_rest c).1 hn)⟩

/-- Every word is one token up to its last character: a keyword if it is spelled exactly like one, a name otherwise. -/
theorem C39_word (C : Cfg) (s : St) (hs : Ready s) (w : List Ch) (hw : Word w) (c : Ch) (hc : EndsWord c) (rest : List Ch)
    (hp : s.pend = w ++ c :: rest) (hlen : w.length < C.maxTok) (hk : kwOf w ≠ some .is ∧ kwOf w ≠ some .not) :
    ∃ s', Lexes C s (wordTok w) s' ∧ s'.pend = c :: rest ∧ Stays s s' s.ign := by
  obtain ⟨d, l, rfl, hd, hl⟩ := word_text hw
  obtain ⟨n1, n2, n3, n4⟩ := name_start hd
  refine lexes_start (by omega) hs (c := d) (l := l ++ c :: rest) hp n1 n2 n3 n4 ?_
  intro s1 h1 h2 h3
  obtain ⟨s', g1, g2, g3, g4⟩ := nameLoop_fwd C l s1 c rest h1 hl hc.stop.2 hc.stop.1 (by rw [h2]; simp at hlen ⊢; omega)
  have ht : s'.text = d :: l := by rw [g3, h2]; rfl
  refine ⟨l.length + 1, s', ?_, g2, by rw [← h3]; exact ⟨g4.mid, g4.exd, g4.line, g4.cur, g4.ind, g4.ign⟩⟩
  rw [token_word hd, word, if_pos hd, g1]
  simp only [ht, wordTok]
  cases hkw : kwOf (d :: l) with
  | none => rfl
  | some k => cases k <;> simp_all

/-- `is` and `not` followed by spaces and any other text `x`. -/
theorem lexes_trailing (C : Cfg) (hC : 12 ≤ C.maxTok) (s : St) (hs : Ready s) (w next : List Ch) (a b : Tok)
    (hcase : (w = [105, 115] ∧ next = [110, 111, 116] ∧ a = .cmpop .is ∧ b = .cmpop .isNot) ∨
      (w = [110, 111, 116] ∧ next = [105, 110] ∧ a = .kw .not ∧ b = .cmpop .notIn))
    (n : Nat) (x : List Ch) (hx : x.head? ≠ some 32) (hb : n = 0 → ∀ c, x.head? = some c → EndsWord c) (hnl : 10 ∈ x) (hz : 0 ∉ x)
    (hp : s.pend = w ++ (List.replicate n 32 ++ x)) :
    ∃ s', Lexes C s (if next <+: x then b else a) s' ∧ Stays s s' s.ign ∧ (next <+: x → next ++ s'.pend = x) ∧
      (¬ next <+: x → s'.pend = List.replicate (min n 1) 32 ++ x) := by
  obtain ⟨e, y, rfl⟩ : ∃ e y, x = e :: y := by
    cases x with
    | nil => cases hnl
    | cons e y => exact ⟨e, y, rfl⟩
  have he32 : e ≠ 32 := by simpa using hx
  -- the character after the word
  obtain ⟨c, rest, hcr, hcs⟩ : ∃ c rest, List.replicate n 32 ++ e :: y = c :: rest ∧ c ≠ 0 ∧ isName c false = false := by
    cases n with
    | zero => exact ⟨e, y, rfl, (hb rfl e rfl).stop⟩
    | succ n => exact ⟨32, List.replicate n 32 ++ e :: y, rfl, by decide, by decide⟩
  have hw : ∃ d l, w = d :: l ∧ isName d true = true ∧ (∀ z ∈ l, isName z false = true) ∧ w.length ≤ 3 ∧
      ((kwOf w = some .is ∧ next = [110, 111, 116] ∧ a = .cmpop .is ∧ b = .cmpop .isNot) ∨
       (kwOf w = some .not ∧ next = [105, 110] ∧ a = .kw .not ∧ b = .cmpop .notIn)) ∧
      next ≠ [] ∧ 0 ∉ next ∧ 10 ∉ next ∧ next.length ≤ 3 := by
    rcases hcase with ⟨rfl, rfl, rfl, rfl⟩ | ⟨rfl, rfl, rfl, rfl⟩
    · exact ⟨105, [115], rfl, by decide, by decide, by decide, .inl ⟨by decide, rfl, rfl, rfl⟩, by decide, by decide, by decide, by decide⟩
    · exact ⟨110, [111, 116], rfl, by decide, by decide, by decide, .inr ⟨by decide, rfl, rfl, rfl⟩, by decide, by decide, by decide, by decide⟩
  clear hcase
  obtain ⟨d, l, rfl, hd, hl, hlen, hkw, hn1, hn2, hn3, hn4⟩ := hw
  simp only [List.length_cons] at hlen
  obtain ⟨n1, n2, n3, n4⟩ := name_start hd
  obtain ⟨s1, f1, f2, f3, f4⟩ := lex_start (C := C) hs (c := d) (l := l ++ c :: rest) (by rw [hp, hcr]; rfl) n1 n2 n3 n4 (by omega)
  obtain ⟨s2, g1, g2, g3, g4⟩ := nameLoop_fwd C l s1 c rest f2 hl hcs.2 hcs.1 (by rw [f3]; simp; omega)
  have ht : s2.text = d :: l := by rw [g3, f3]; rfl
  obtain ⟨s3, t1, t2, t3, t4⟩ := trailing_fwd C next a b n s2 e y (by rw [g2, hcr]) he32 hn1 hn2 hn3
    (by rw [ht]; simp; omega) hnl hz
  refine ⟨s3, ?_, (f1.same g4).same t2, t3, t4⟩
  refine .of (k := (max (l.length + 1) (n + 1)) + 1) ?_
  have gm : ∀ {j s s'}, nameLoop C j s = some s' → ∀ i, nameLoop C (j + i) s = some s' := by
    intro j s s' h i
    induction i with
    | zero => exact h
    | succ i ih => exact nameLoop_mono C ih
  have tm : ∀ {j s r}, trailing C j next a b s = some r → ∀ i, trailing C (j + i) next a b s = some r := by
    intro j s s' h i
    induction i with
    | zero => exact h
    | succ i ih => exact trailing_mono C ih
  have g1' : nameLoop C (max (l.length + 1) (n + 1)) s1 = some s2 := by
    have := gm g1 (max (l.length + 1) (n + 1) - (l.length + 1))
    rwa [Nat.add_sub_cancel' (Nat.le_max_left _ _)] at this
  have t1' := tm t1 (max (l.length + 1) (n + 1) - (n + 1))
  rw [Nat.add_sub_cancel' (Nat.le_max_right _ _)] at t1'
  rw [f4, token_word hd, word, if_pos hd, g1']
  rcases hkw with ⟨k1, rfl, rfl, rfl⟩ | ⟨k1, rfl, rfl, rfl⟩ <;> simp only [ht, k1] <;> exact t1'

/-- `not` (or `is`), spaces and an identifier that does not begin with `in` (or `not`): the operator, then the identifier. Missing
from the full claim: the identifiers that do, see `C39_violated`. -/
theorem C39_unary_partial (C : Cfg) (hC : 12 ≤ C.maxTok) (s : St) (hs : Ready s) (w next : List Ch) (op : Tok)
    (hcase : (w = [110, 111, 116] ∧ next = [105, 110] ∧ op = .kw .not) ∨ (w = [105, 115] ∧ next = [110, 111, 116] ∧ op = .cmpop .is))
    (n : Nat) (v : List Ch) (hv : Word v) (hkw : kwOf v = none) (hvn : ¬ next <+: v) (c : Ch) (hc : EndsWord c) (rest : List Ch)
    (hlen : v.length < C.maxTok) (hnl : 10 ∈ c :: rest) (hz : 0 ∉ c :: rest)
    (hp : s.pend = w ++ (List.replicate (n + 1) 32 ++ (v ++ c :: rest))) :
    ∃ s1 s2, Lexes C s op s1 ∧ Lexes C s1 (.name v) s2 ∧ s2.pend = c :: rest := by
  obtain ⟨d, l, hdl, hd, hl⟩ := word_text hv
  have hz' : 0 ∉ v := by
    rw [hdl]
    intro h
    rcases List.mem_cons.1 h with h | h
    · exact (name_start hd).1 h.symm
    · exact absurd (hl 0 h) (by decide)
  have hpre : ¬ next <+: v ++ c :: rest := by
    intro h
    rcases List.prefix_or_prefix_of_prefix h (List.prefix_append v (c :: rest)) with h' | ⟨t, h1⟩
    · exact hvn h'
    · -- the word ends inside `next`, so its next character is a name character
      cases t with
      | nil => rw [List.append_nil] at h1; exact hvn (by rw [h1]; exact List.prefix_refl _)
      | cons t0 t =>
        have h2 : t0 :: t <+: c :: rest := by
          rw [← h1] at h
          exact (List.prefix_append_right_inj v).1 h
        rw [List.cons_prefix_cons] at h2
        have hmem : c ∈ next := by rw [← h1, ← h2.1]; simp
        have : isName c false = true := by
          rcases hcase with ⟨-, rfl, -⟩ | ⟨-, rfl, -⟩
          · simp only [List.mem_cons, List.not_mem_nil, or_false] at hmem
            rcases hmem with rfl | rfl <;> decide
          · simp only [List.mem_cons, List.not_mem_nil, or_false] at hmem
            rcases hmem with rfl | rfl | rfl <;> decide
        rw [hc.stop.2] at this
        cases this
  obtain ⟨s1, h1, h2, -, h4⟩ := lexes_trailing C hC s hs w next op (if w = [105, 115] then .cmpop .isNot else .cmpop .notIn) (by
    rcases hcase with ⟨rfl, rfl, rfl⟩ | ⟨rfl, rfl, rfl⟩
    · right; simp
    · left; simp) (n + 1) (v ++ c :: rest) (by rw [hdl]; simp; exact (name_start hd).2.2.2) (by simp)
    (List.mem_append_right _ hnl) (by rw [List.mem_append, not_or]; exact ⟨hz', hz⟩) hp
  rw [if_neg hpre] at h1
  obtain ⟨s2, g1, g2, g3⟩ := lexes_spaces (C := C) (by omega) h2.ready (min (n + 1) 1) (h4 hpre)
  obtain ⟨s3, k1, k2, -⟩ := C39_word C s2 g1.ready v hv c hc rest g2 hlen (by rw [hkw]; simp)
  rw [wordTok, hkw] at k1
  exact ⟨s1, s3, h1, g3 _ _ k1, k2⟩

/-- `not in` and `is not` with any number of spaces between the words are one operator each. -/
theorem C39_two_words (C : Cfg) (hC : 12 ≤ C.maxTok) (s : St) (hs : Ready s) (w next : List Ch) (op : Tok)
    (hcase : (w = [110, 111, 116] ∧ next = [105, 110] ∧ op = .cmpop .notIn) ∨ (w = [105, 115] ∧ next = [110, 111, 116] ∧ op = .cmpop .isNot))
    (n : Nat) (rest : List Ch) (hnl : 10 ∈ rest) (hz : 0 ∉ rest) (hp : s.pend = w ++ (List.replicate (n + 1) 32 ++ (next ++ rest))) :
    ∃ s1, Lexes C s op s1 ∧ s1.pend = rest := by
  obtain ⟨s1, h1, -, h3, -⟩ := lexes_trailing C hC s hs w next (if w = [105, 115] then .cmpop .is else .kw .not) op (by
    rcases hcase with ⟨rfl, rfl, rfl⟩ | ⟨rfl, rfl, rfl⟩
    · right; simp
    · left; simp) (n + 1) (next ++ rest) (by rcases hcase with ⟨-, rfl, -⟩ | ⟨-, rfl, -⟩ <;> simp) (by simp)
    (List.mem_append_right _ hnl) (by
      rw [List.mem_append, not_or]
      exact ⟨by rcases hcase with ⟨-, rfl, -⟩ | ⟨-, rfl, -⟩ <;> decide, hz⟩) hp
  rw [if_pos (List.prefix_append _ _)] at h1
  exact ⟨s1, h1, List.append_cancel_left (h3 (List.prefix_append _ _))⟩

/-- The claim is false for every identifier that begins with `in` after `not`: the operator is `not in` and the identifier loses two
characters. The same holds for `is` and identifiers that begin with `not`. -/
theorem C39_violated (C : Cfg) (hC : 12 ≤ C.maxTok) (s : St) (hs : Ready s) (v : List Ch) (c : Ch) (rest : List Ch) (hv : Word ([105, 110] ++ v))
    (hnl : 10 ∈ c :: rest) (hz : 0 ∉ c :: rest) (hp : s.pend = [110, 111, 116, 32, 105, 110] ++ v ++ c :: rest) :
    ∃ s1, Lexes C s (.cmpop .notIn) s1 ∧ s1.pend = v ++ c :: rest := by
  obtain ⟨d, l, hdl, hd, hl⟩ := word_text hv
  simp only [List.cons_append, List.nil_append, List.cons.injEq] at hdl
  obtain ⟨-, rfl⟩ := hdl
  refine C39_two_words C hC s hs _ _ _ (.inl ⟨rfl, rfl, rfl⟩) 0 (v ++ c :: rest) (List.mem_append_right _ hnl) ?_ (by rw [hp]; simp)
  rw [List.mem_append, not_or]
  exact ⟨fun h => absurd (hl 0 (by simp [h])) (by decide), hz⟩

/-! `not x` and the word `index`. -/

example : Word [105, 110, 100, 101, 120] ∧ EndsWord 32 ∧ kwOf [105, 110, 100, 101, 120] = none ∧ ¬ [105, 110] <+: ([120] : List Ch) :=
  ⟨⟨105, _, rfl, by decide, by decide⟩, by unfold EndsWord; decide, by decide, by decide⟩

example : (lex ⟨false, 255, true⟩ 300 { St.init [110, 111, 116, 32, 105, 110, 100, 101, 120, 10] with mid := true }).map (fun r => (r.1, r.2.pend)) =
    some (.cmpop .notIn, [100, 101, 120, 10]) := by decide +kernel

end Snek.Lex
