import Verif.Proofs.Spelling
import Verif.Model.Layout
import Verif.Proofs.ParseComplete
import Verif.Spec.Layout
namespace Snek.Parse
open Snek.Lex Spec.Layout Spec.Spelling

theorem comment_fwd (body : List Ch) : ∀ (s : St) (l : List Ch), s.pend = body ++ 10 :: l → 10 ∉ body →
    ∃ s', comment (body.length + 1) s = some s' ∧ s'.pend = l ∧ s'.mid = s.mid ∧ s'.exd = s.exd ∧ s'.cur = s.cur ∧ s'.ign = s.ign ∧ s'.line = s.line + 1 := by
  induction body with
  | nil =>
    intro s l h _
    refine ⟨(lexchar s).2, ?_, ?_⟩
    · rw [comment]; simp [lexchar, h]
    · simp [lexchar, h]
  | cons c body ih =>
    intro s l h hb
    have hc : c ≠ 10 := fun e => hb (by simp [e])
    obtain ⟨h1, h2, h3, h4⟩ := lexchar_cons h hc
    obtain ⟨s', g1, g2, g3, g4, g5, g6, g7⟩ := ih (lexchar s).2 l h2 (fun h => hb (by simp [h]))
    refine ⟨s', ?_, g2, g3.trans h4.mid, g4.trans h4.exd, g5.trans h4.cur, g6.trans h4.ign, by rw [g7, h4.line]⟩
    rw [List.length_cons, comment]
    simp only [h1, if_neg hc]
    exact g1

/-- What `lineStart` leaves alone. -/
structure Keeps (s s' : St) : Prop where
  mid : s'.mid = s.mid
  exd : s'.exd = s.exd
  cur : s'.cur = s.cur
  ign : s'.ign = s.ign

theorem Keeps.trans {a b c : St} (h : Keeps a b) (h' : Keeps b c) : Keeps a c :=
  ⟨h'.mid.trans h.mid, h'.exd.trans h.exd, h'.cur.trans h.cur, h'.ign.trans h.ign⟩

theorem Same.keeps {s s' : St} (h : Same s s') : Keeps s s' := ⟨h.mid, h.exd, h.cur, h.ign⟩

theorem lineStart_le {C : Cfg} {k m : Nat} {s : St} {r : Ch × St} (h : lineStart C k s = some r) (hm : k ≤ m) : lineStart C m s = some r := by
  obtain ⟨d, rfl⟩ := Nat.exists_eq_add_of_le hm
  clear hm
  induction d with
  | zero => exact h
  | succ d ih => exact lineStart_mono C ih

theorem spaces_le {k m : Nat} {s : St} {r : Nat × Ch × St} (h : spaces k s = some r) (hm : k ≤ m) : spaces m s = some r := by
  obtain ⟨d, rfl⟩ := Nat.exists_eq_add_of_le hm
  clear hm
  induction d with
  | zero => exact h
  | succ d ih => exact spaces_mono ih

theorem comment_le {k m : Nat} {s s' : St} (h : comment k s = some s') (hm : k ≤ m) : comment m s = some s' := by
  obtain ⟨d, rfl⟩ := Nat.exists_eq_add_of_le hm
  clear hm
  induction d with
  | zero => exact h
  | succ d ih => exact comment_mono ih

theorem comment_ind {k : Nat} {s s' : St} (h : comment k s = some s') : s'.ind = s.ind := by
  have hl : ∀ s : St, (lexchar s).2.ind = s.ind := by intro s; unfold lexchar; split <;> rfl
  induction k generalizing s with
  | zero => cases h
  | succ k ih =>
    rw [comment] at h
    split at h
    · cases h; exact hl s
    · rw [ih h, hl]

theorem spells_proper {C : Cfg} {w l : List Ch} {t : Tok} (h : Spells C w t l) : t.proper = true := by
  cases h
  case fixed H h =>
    have : ∀ b, (Spec.Spelling.fixed b).all (fun p => p.2.proper) = true := by intro b; cases b <;> decide +kernel
    exact List.all_eq_true.1 (this _) _ h
  all_goals rfl

/-! ## The beginning of a line -/

theorem unlexchar_keeps (c : Ch) (s : St) : Keeps s (unlexchar c s) := ⟨rfl, rfl, rfl, rfl⟩

theorem Keeps.of_un {c : Ch} {s s' : St} (h : Same s (unlexchar c s')) : Keeps s s' := ⟨h.mid, h.exd, h.cur, h.ign⟩

theorem spaces_line (n : Nat) : ∀ {s s' : St} {c : Ch} {l : List Ch}, s.pend = List.replicate n 32 ++ c :: l → c ≠ 32 → spaces (n + 1) s = some (n, c, s') →
    s'.line = s.line + if c = 10 then 1 else 0 := by
  induction n with
  | zero =>
    intro s s' c l hp hc h
    simp [spaces, lexchar, hp, hc] at h
    rw [← h]; simp; split <;> rfl
  | succ n ih =>
    intro s s' c l hp hc h
    rw [List.replicate_succ, List.cons_append] at hp
    obtain ⟨h1, h2, -, h4⟩ := lexchar_cons hp (by decide)
    rw [spaces] at h
    simp only [h1, if_true] at h
    cases hs : spaces (n + 1) (lexchar s).2 with
    | none => rw [hs] at h; cases h
    | some r =>
      obtain ⟨n', c', s''⟩ := r
      rw [hs] at h
      simp only [Option.some.injEq, Prod.mk.injEq, Nat.add_right_cancel_iff] at h
      obtain ⟨rfl, rfl, rfl⟩ := h
      rw [ih h2 hc hs, h4.line]

theorem lineStart_gap_step {C : Cfg} (hi : C.interactive = false) {g : List Ch} (hg : Gap g) (hne : g ≠ []) {s : St} {l : List Ch}
    (hp : s.pend = g ++ l) : ∃ s1 g1 k0, Gap g1 ∧ g1.length < g.length ∧ s1.pend = g1 ++ l ∧ Keeps s s1 ∧ s1.line + g1.count 10 = s.line + g.count 10 ∧
      ∀ k, k0 ≤ k → lineStart C (k+1) s = lineStart C k s1 := by
  cases hg with
  | nil => exact absurd rfl hne
  | @blank g n hg =>
    have hp' : ({ s with ind := 0 } : St).pend = List.replicate n 32 ++ 10 :: (g ++ l) := by simpa using hp
    obtain ⟨s', h1, h2, h3, h4⟩ := spaces_fwd n _ 10 (g ++ l) hp' (by decide)
    refine ⟨{ s' with ind := n % 256 }, g, n + 1, hg, by simp; omega, h2, ?_, ?_, fun k hk => ?_⟩
    · have := Keeps.of_un h4; exact ⟨this.mid, this.exd, this.cur, this.ign⟩
    · have h6 := spaces_line n hp' (by decide) h1
      simp [List.count_replicate] at h6 ⊢; omega
    · rw [lineStart, spaces_le h1 hk]
      simp [hi]
  | @comment g body n hb hg =>
    have hp' : ({ s with ind := 0 } : St).pend = List.replicate n 32 ++ 35 :: (body ++ 10 :: (g ++ l)) := by simpa using hp
    obtain ⟨s', h1, h2, h3, h4⟩ := spaces_fwd n _ 35 _ hp' (by decide)
    obtain ⟨s2, g1, g2, g3, g4, g5, g6, g7⟩ := comment_fwd body { s' with ind := n % 256 } (g ++ l) h2 hb
    refine ⟨s2, g, n + body.length + 1, hg, by simp; omega, g2, ?_, ?_, fun k hk => ?_⟩
    · have := Keeps.of_un h4; exact ⟨g3.trans this.mid, g4.trans this.exd, g5.trans this.cur, g6.trans this.ign⟩
    · have h5 := h4.line
      simp [unlexchar] at h5
      rw [g7]; simp [List.count_replicate, List.count_eq_zero.2 hb, h5]; omega
    · rw [lineStart, spaces_le h1 (by omega)]
      simp [comment_le g1 (show body.length + 1 ≤ k by omega)]

theorem lineStart_line {C : Cfg} (hi : C.interactive = false) {c : Ch} {n : Nat} {rest : List Ch} (hc : c ≠ 32 ∧ c ≠ 10 ∧ c ≠ 35 ∧ c ≠ 0) (m : Nat) :
    ∀ {g : List Ch} {s : St}, Gap g → g.length ≤ m → s.pend = g ++ (List.replicate n 32 ++ c :: rest) →
      ∃ k s', lineStart C k s = some (c, s') ∧ s'.pend = rest ∧ s'.ind = n % 256 ∧ Keeps s s' ∧ s'.line = s.line + g.count 10 := by
  induction m with
  | zero =>
    intro g s hg hm hp
    have : g = [] := List.length_eq_zero_iff.1 (by omega)
    subst this
    obtain ⟨s', h1, h2, h3, h4⟩ := spaces_fwd n { s with ind := 0 } c rest (by simpa using hp) hc.1
    refine ⟨n + 2, { s' with ind := n % 256 }, ?_, h2, rfl, ?_, ?_⟩
    · rw [lineStart, h1]
      simp [hc.2.1, hc.2.2.1, hc.2.2.2]
    · have := Keeps.of_un h4; exact ⟨this.mid, this.exd, this.cur, this.ign⟩
    · have h5 := h4.line
      simpa [unlexchar, hc.2.1] using h5
  | succ m ih =>
    intro g s hg hm hp
    by_cases hne : g = []
    · subst hne; exact ih .nil (by simp) hp
    · obtain ⟨s1, g1, k0, a1, a2, a3, a4, a6, a5⟩ := lineStart_gap_step hi hg hne hp
      obtain ⟨k, s', b1, b2, b3, b4, b5⟩ := ih a1 (by omega) a3
      refine ⟨k + k0 + 1, s', ?_, b2, b3, a4.trans b4, b5.trans a6⟩
      rw [a5 _ (by omega)]
      exact lineStart_le b1 (by omega)

theorem lineStart_end {C : Cfg} (hi : C.interactive = false) (m : Nat) :
    ∀ {g : List Ch} {s : St}, Gap g → g.length ≤ m → s.pend = g →
      ∃ k s', lineStart C k s = some (0, s') ∧ s'.pend = [] ∧ s'.ind = 0 ∧ Keeps s s' ∧ s'.line = s.line + g.count 10 := by
  induction m with
  | zero =>
    intro g s hg hm hp
    have : g = [] := List.length_eq_zero_iff.1 (by omega)
    subst this
    refine ⟨2, { s with ind := 0 }, ?_, hp, rfl, ⟨rfl, rfl, rfl, rfl⟩, by simp⟩
    simp [lineStart, spaces, lexchar, hp]
  | succ m ih =>
    intro g s hg hm hp
    by_cases hne : g = []
    · subst hne; exact ih .nil (by simp) hp
    · obtain ⟨s1, g1, k0, a1, a2, a3, a4, a6, a5⟩ := lineStart_gap_step hi hg hne (l := []) (by simpa using hp)
      obtain ⟨k, s', b1, b2, b3, b4, b5⟩ := ih a1 (by omega) (by simpa using a3)
      refine ⟨k + k0 + 1, s', ?_, b2, b3, a4.trans b4, b5.trans a6⟩
      rw [a5 _ (by omega)]
      exact lineStart_le b1 (by omega)

/-- At the start of a line indented more than the block. -/
theorem lex_indent {C : Cfg} {s s' : St} {k : Nat} {c : Ch} (hl : lineStart C k s = some (c, s')) (hm : s.mid = false) (hk : Keeps s s')
    (hg : s.ign = 0) (h : s.cur < s'.ind) :
    Lexes C s (.indent s.cur) { unlexchar c { s' with mid := true } with cur := s'.ind } := by
  refine .of (k := k + 1) ?_
  rw [lex, indentation, hm, hl]
  simp [unlexchar, hk.ign, hg, hk.cur, h]

/-- At the start of another line: as in the middle of it, after noting whether blocks end. -/
theorem lex_line {C : Cfg} {s s' : St} {k : Nat} {c : Ch} (hl : lineStart C k s = some (c, s')) (hm : s.mid = false) (hk : Keeps s s')
    (hx : s.exd = false) (h : s.ign = 0 → s'.ind ≤ s.cur) (hc : c ≠ 10) :
    ∃ s1, s1.mid = true ∧ s1.exd = (decide (s.ign = 0) && decide (s'.ind < s.cur)) ∧ s1.ind = s'.ind ∧ s1.cur = s.cur ∧ s1.ign = s.ign ∧
      s1.pend = c :: s'.pend ∧ s1.line = s'.line ∧ ∀ t s2, Lexes C s1 t s2 → Lexes C s t s2 := by
  have hx' : s'.exd = false := hk.exd.trans hx
  refine ⟨{ unlexchar c { s' with mid := true } with exd := (decide (s.ign = 0) && decide (s'.ind < s.cur)) }, rfl, rfl, rfl, hk.cur, hk.ign, rfl,
    by simp [unlexchar, hc], ?_⟩
  intro t s2 ⟨m, hm2⟩
  refine ⟨m + k + 1, fun j hj => ?_⟩
  have := hm2 j (by omega)
  obtain ⟨j, rfl⟩ : ∃ i, j = i + 1 := ⟨j - 1, by omega⟩
  have hi : indentation C j s = some (none, { unlexchar c { s' with mid := true } with exd := (decide (s.ign = 0) && decide (s'.ind < s.cur)) }) := by
    rw [indentation, hm, lineStart_le hl (by omega)]
    simp only [Bool.false_eq_true, if_false]
    by_cases hg : s.ign = 0
    · have : ¬ s'.cur < s'.ind := by have := h hg; rw [hk.cur]; omega
      rw [if_pos (show (unlexchar c { s' with mid := true }).ign = 0 from hk.ign.trans hg)]
      rw [if_neg (show ¬ (unlexchar c { s' with mid := true }).cur < (unlexchar c { s' with mid := true }).ind from this)]
      congr 2
      simp only [unlexchar, hk.cur, hg]
      split <;> simp_all
    · rw [if_neg (show ¬ (unlexchar c { s' with mid := true }).ign = 0 by rw [show (unlexchar c { s' with mid := true }).ign = s.ign from hk.ign]; exact hg)]
      congr 2
      simp [unlexchar, hg, hx']
  rw [lex, hi]
  rw [lex] at this
  rw [← this]
  congr 1

/-! ## Logical lines -/

/-- The tokens, each with the line afterwards, are the next ones the lexer returns. -/
inductive Run (C : Cfg) : St → List (Tok × Nat) → St → Prop
  | nil (s) : Run C s [] s
  | cons {s t s' ts s''} : Lexes C s t s' → Run C s' ts s'' → Run C s ((t, s'.line) :: ts) s''

theorem Run.lift {C : Cfg} {s s1 s' : St} {p : Tok × Nat} {ts : List (Tok × Nat)} (h : ∀ t s2, Lexes C s1 t s2 → Lexes C s t s2) (r : Run C s1 (p :: ts) s') :
    Run C s (p :: ts) s' := by
  cases r with
  | cons a b => exact .cons (h _ _ a) b

theorem Lexes.lift {C : Cfg} {s s1 : St} {k0 : Nat} (h : ∀ k, k0 ≤ k → lex C (k + 1) s = lex C k s1) (t : Tok) (s2 : St) (hl : Lexes C s1 t s2) : Lexes C s t s2 := by
  obtain ⟨m, hm⟩ := hl
  refine ⟨m + k0 + 1, fun j hj => ?_⟩
  obtain ⟨j, rfl⟩ : ∃ i, j = i + 1 := ⟨j - 1, by omega⟩
  rw [h j (by omega)]
  exact hm j (by omega)

theorem lextoken_nl {C : Cfg} (hm : 0 < C.maxTok) {s : St} {l : List Ch} (h : s.pend = 10 :: l) (ht : s.text = []) :
    (lextoken C s).1 = 10 ∧ (lextoken C s).2.pend = l ∧ (lextoken C s).2.line = s.line + 1 ∧ Keeps s (lextoken C s).2 := by
  unfold lextoken addToken lexchar
  rw [h]
  have : ¬ s.text.length = C.maxTok := by rw [ht]; simp; omega
  simp [this]
  exact ⟨rfl, rfl, rfl, rfl⟩

/-- The end of a line. -/
theorem lexes_nl {C : Cfg} (hm : 0 < C.maxTok) {s : St} (hs : Ready s) (hx : s.exd = false) (hg : s.ign = 0) {l : List Ch} (h : s.pend = 10 :: l) :
    ∃ s', Lexes C s .nl s' ∧ s'.pend = l ∧ s'.mid = false ∧ s'.exd = false ∧ s'.ign = 0 ∧ s'.cur = s.cur ∧ s'.line = s.line + 1 := by
  obtain ⟨s1, h1, h2, h3, h4⟩ := lex_mid C hs
  obtain ⟨g1, g2, g3, g4⟩ := lextoken_nl hm (h2.trans h) h3
  refine ⟨{ (lextoken C s1).2 with mid := false }, .of (k := 1) ?_, g2, rfl, g4.exd.trans (h1.exd hx), (g4.ign.trans h1.ign).trans hg, g4.cur.trans h1.cur,
    g3.trans (by rw [h1.line])⟩
  rw [h4 0]
  simp only [g1]
  have : (lextoken C s1).2.ign = 0 := (g4.ign.trans h1.ign).trans hg
  simp [this]

/-- A newline within brackets. -/
theorem lexes_joined {C : Cfg} (hm : 0 < C.maxTok) {s : St} (hs : Ready s) (hx : s.exd = false) (hg : s.ign ≠ 0) {l : List Ch} (h : s.pend = 10 :: l) :
    ∃ s', s'.pend = l ∧ s'.mid = false ∧ s'.exd = false ∧ s'.ign = s.ign ∧ s'.cur = s.cur ∧ s'.line = s.line + 1 ∧ ∀ t s2, Lexes C s' t s2 → Lexes C s t s2 := by
  obtain ⟨s1, h1, h2, h3, h4⟩ := lex_mid C hs
  obtain ⟨g1, g2, g3, g4⟩ := lextoken_nl hm (h2.trans h) h3
  refine ⟨{ (lextoken C s1).2 with mid := false }, g2, rfl, g4.exd.trans (h1.exd hx), g4.ign.trans h1.ign, g4.cur.trans h1.cur,
    g3.trans (by rw [h1.line]), Lexes.lift (k0 := 0) fun k _ => ?_⟩
  rw [h4 k]
  simp only [g1]
  have : (lextoken C s1).2.ign = s.ign := g4.ign.trans h1.ign
  simp [this, hg]

/-- A comment, up to the newline. -/
theorem lexes_comment {C : Cfg} (hm : 0 < C.maxTok) {s : St} (hs : Ready s) {body l : List Ch} (hb : 10 ∉ body) (h : s.pend = 35 :: (body ++ 10 :: l)) :
    ∃ s', Stays s s' s.ign ∧ s'.pend = 10 :: l ∧ ∀ t s2, Lexes C s' t s2 → Lexes C s t s2 := by
  obtain ⟨s1, h1, h2, h3, h4⟩ := lex_mid C hs
  obtain ⟨g1, g2, g3, g4⟩ := lextoken_cons (C := C) (h2.trans h) (by decide) (by decide) (by rw [h3]; exact hm)
  obtain ⟨s2, a1, a2, a3, a4, a5, a6, a7⟩ := comment_fwd body (lextoken C s1).2 l g2 hb
  have st := h1.same g4
  have hi : (unlexchar 10 s2).ind = s.ind := (comment_ind a1).trans st.ind
  refine ⟨unlexchar 10 s2, ⟨⟨a3.trans st.ready.1, ?_⟩, ?_, a5.trans st.cur, hi, a6.trans st.ign, fun e => a4.trans (st.exd e)⟩, by simp [unlexchar, a2],
    Lexes.lift (k0 := body.length + 1) fun k hk => ?_⟩
  · intro e
    rw [hi, show (unlexchar 10 s2).cur = s.cur from a5.trans st.cur, ← st.ind, ← st.cur]
    exact st.ready.2 (a4.symm.trans e)
  · simp [unlexchar, a7, st.line]
  · rw [h4 k]
    simp [g1, comment_le a1 hk]

/-- Within brackets: what comes before the next token. -/
theorem text_gap {C : Cfg} {d n n' : Nat} {l : List Ch} {ts : List (Tok × Nat)} (h : Text C (d + 1) n l ts n') :
    ∃ g k c r, l = g ++ (List.replicate k 32 ++ c :: r) ∧ Gap g ∧ (c ≠ 32 ∧ c ≠ 10 ∧ c ≠ 35 ∧ c ≠ 0) ∧ Text C (d + 1) (n + g.count 10) (c :: r) ts n' := by
  generalize hd : d + 1 = e at h
  induction h with
  | newline => cases hd
  | comment => cases hd
  | space _ ih =>
    obtain ⟨g, k, c, r, rfl, h2, h3, h4⟩ := ih hd
    cases h2 with
    | nil => exact ⟨[], k + 1, c, r, by simp [List.replicate_succ], .nil, h3, h4⟩
    | @blank g m h2 =>
      refine ⟨List.replicate (m + 1) 32 ++ 10 :: g, k, c, r, by simp [List.replicate_succ], .blank _ h2, h3, ?_⟩
      simpa [List.count_replicate] using h4
    | @comment g body m hb h2 =>
      refine ⟨List.replicate (m + 1) 32 ++ 35 :: (body ++ 10 :: g), k, c, r, by simp [List.replicate_succ], .comment _ hb h2, h3, ?_⟩
      simpa [List.count_replicate] using h4
  | @joined d n l ts n' _ ih =>
    obtain ⟨g, k, c, r, rfl, h2, h3, h4⟩ := ih hd
    refine ⟨10 :: g, k, c, r, by simp, .blank 0 h2, h3, ?_⟩
    rw [List.count_cons_self, show n + (g.count 10 + 1) = n + 1 + g.count 10 by omega]; exact h4
  | @joinedComment d n body l ts n' hb _ ih =>
    obtain ⟨g, k, c, r, rfl, h2, h3, h4⟩ := ih hd
    refine ⟨35 :: (body ++ 10 :: g), k, c, r, by simp, .comment 0 hb h2, h3, ?_⟩
    have e : (35 :: (body ++ 10 :: g) : List Ch).count 10 = g.count 10 + 1 := by simp [List.count_eq_zero.2 hb]
    rw [e, show n + (g.count 10 + 1) = n + 1 + g.count 10 by omega]; exact h4
  | @token d n w t l ts n' h1 h2 h3 ih =>
    obtain ⟨c, r, rfl, hc⟩ := spells_first h2
    exact ⟨[], 0, c, r ++ l, by simp, .nil, hc, by simpa using Text.token h1 h2 h3⟩

/-- The tokens of a logical line. -/
theorem text_run {C : Cfg} (hi : C.interactive = false) (hC : 12 ≤ C.maxTok) (m : Nat) : ∀ {d n n' : Nat} {body : List Ch} {ts : List (Tok × Nat)}, body.length ≤ m →
    Text C d n body ts n' → ∀ (s : St) (rest : List Ch), Ready s → s.exd = false → s.ign = d → s.line = n → s.pend = body ++ rest → 0 ∉ body ++ rest →
    ts ≠ [] ∧ (∀ t ∈ ts, t.1.proper = true ∨ t.1 = .nl) ∧
    ∃ s', Run C s ts s' ∧ s'.pend = rest ∧ s'.mid = false ∧ s'.exd = false ∧ s'.ign = 0 ∧ s'.cur = s.cur ∧ s'.line = n' := by
  induction m with
  | zero =>
    intro d n n' body ts hl h
    have := text_newline h
    rw [List.length_eq_zero_iff.1 (show body.length = 0 by omega)] at this
    cases this
  | succ m ih =>
    intro d n n' body ts hl h s rest hs hx hg hn hp hz
    have joined : ∀ {d n l} {s : St}, l.length ≤ m → Text C (d + 1) (n + 1) l ts n' → Ready s → s.exd = false → s.ign = d + 1 → s.line = n → s.pend = 10 :: (l ++ rest) → 0 ∉ l ++ rest →
        ts ≠ [] ∧ (∀ t ∈ ts, t.1.proper = true ∨ t.1 = .nl) ∧
        ∃ s', Run C s ts s' ∧ s'.pend = rest ∧ s'.mid = false ∧ s'.exd = false ∧ s'.ign = 0 ∧ s'.cur = s.cur ∧ s'.line = n' := by
      intro d n l s hl h hs hx hg hn hp hz
      obtain ⟨s1, a1, a2, a3, a4, a5, a6, a7⟩ := lexes_joined (C := C) (by omega) hs hx (by omega) hp
      obtain ⟨g, k, c, r, rfl, b2, b3, b4⟩ := text_gap h
      obtain ⟨k', s2, c1, c2, c3, c4, c5⟩ := lineStart_line hi (n := k) (rest := r ++ rest) b3 _ b2 (Nat.le_refl _) (by rw [a1]; simp)
      obtain ⟨s3, d1, d2, d3, d4, d5, d6, d7, d8⟩ := lex_line c1 a2 c4 a3 (by omega) b3.2.1
      have hign : s1.ign = d + 1 := a4.trans hg
      have hx3 : s3.exd = false := by rw [d2, hign]; simp
      have hlen : (c :: r).length ≤ m := by simp at hl ⊢; omega
      obtain ⟨e1, e2, s', f1, f2, f3, f4, f5, f6, f7⟩ := ih hlen b4 s3 rest ⟨d1, by rw [hx3]; simp⟩ hx3 (d5.trans hign) (by rw [d7, c5, a6, hn]) (by rw [d6, c2]; simp)
        (fun h => hz (by simp only [List.mem_append, List.mem_cons] at h ⊢; rcases h with (h | h) | h <;> simp [h]))
      refine ⟨e1, e2, s', ?_, f2, f3, f4, f5, by rw [f6, d4, a5], f7⟩
      obtain ⟨p, ts', rfl⟩ : ∃ p ts', ts = p :: ts' := by
        cases ts with
        | nil => exact absurd rfl e1
        | cons p ts' => exact ⟨p, ts', rfl⟩
      exact f1.lift fun t s2 h => a7 _ _ (d8 _ _ h)
    cases h with
    | newline =>
      obtain ⟨s', h1, h2, h3, h4, h5, h6, h7⟩ := lexes_nl (C := C) (by omega) hs hx hg (by simpa using hp)
      refine ⟨by simp, by simp, s', ?_, h2, h3, h4, h5, h6, by rw [h7, hn]⟩
      rw [← hn, ← h7]
      exact .cons h1 (.nil _)
    | @comment body _ hb =>
      obtain ⟨s1, g1, g2, g3⟩ := lexes_comment (C := C) (by omega) hs hb (l := rest) (by simpa using hp)
      obtain ⟨s', h1, h2, h3, h4, h5, h6, h7⟩ := lexes_nl (C := C) (by omega) g1.ready (g1.exd hx) (g1.ign.trans hg) g2
      refine ⟨by simp, by simp, s', ?_, h2, h3, h4, h5, by rw [h6, g1.cur], by rw [h7, g1.line, hn]⟩
      rw [← hn, ← g1.line, ← h7]
      exact .cons (g3 _ _ h1) (.nil _)
    | @space _ _ l _ _ h =>
      obtain ⟨s1, g1, g2, g3⟩ := lex_space (C := C) hs (l := l ++ rest) (by simpa using hp) (by omega)
      obtain ⟨e1, e2, s', f1, f2, f3, f4, f5, f6, f7⟩ := ih (by simp at hl; omega) h s1 rest g1.ready (g1.exd hx) (g1.ign.trans hg) (g1.line.trans hn) g2
        (fun h => hz (by simp only [List.cons_append, List.mem_cons]; exact .inr h))
      refine ⟨e1, e2, s', ?_, f2, f3, f4, f5, by rw [f6, g1.cur], f7⟩
      obtain ⟨p, ts', rfl⟩ : ∃ p ts', ts = p :: ts' := by
        cases ts with
        | nil => exact absurd rfl e1
        | cons p ts' => exact ⟨p, ts', rfl⟩
      exact f1.lift (Lexes.lift (k0 := 0) fun k _ => g3 k)
    | joined h =>
      exact joined (by simp at hl; omega) h hs hx hg hn (by simpa using hp) (fun h => hz (by simp only [List.cons_append, List.mem_cons]; exact .inr h))
    | @joinedComment d _ body l _ _ hb h =>
      obtain ⟨s1, g1, g2, g3⟩ := lexes_comment (C := C) (by omega) hs hb (l := l ++ rest) (by simpa using hp)
      obtain ⟨e1, e2, s', f1, f2, f3, f4, f5, f6, f7⟩ := joined (s := s1) (by simp at hl; omega) h g1.ready (g1.exd hx) (g1.ign.trans hg) (g1.line.trans hn) g2
        (fun h => hz (by simp only [List.mem_append, List.mem_cons] at h ⊢; rcases h with h | h <;> simp [h]))
      refine ⟨e1, e2, s', ?_, f2, f3, f4, f5, by rw [f6, g1.cur], f7⟩
      obtain ⟨p, ts', rfl⟩ : ∃ p ts', ts = p :: ts' := by
        cases ts with
        | nil => exact absurd rfl e1
        | cons p ts' => exact ⟨p, ts', rfl⟩
      exact f1.lift g3
    | @token _ _ w t l ts _ h1 h2 h3 =>
      obtain ⟨c, r, hw, -⟩ := spells_first h2
      have hz' : 0 ∉ l ++ rest := fun h => hz (by rw [List.append_assoc]; exact List.mem_append_right _ h)
      obtain ⟨s1, a, b, x, g1, g2, rfl, g4, g5⟩ := spells_lexes hC h2 hs (by omega) (by rw [hp]; simp) (text_newline h3) hz'
      have hx' := text_spaces a (text_strip h3)
      obtain ⟨e1, e2, s', f1, f2, f3, f4, f5, f6, f7⟩ := ih (body := List.replicate a 32 ++ x) (by rw [hw] at hl; simp at hl ⊢; omega) hx' s1 rest g2.ready (g2.exd hx)
        (by rw [g2.ign, hg]) (g2.line.trans hn) g5 (fun h => hz' (by
          simp only [List.mem_append, List.mem_replicate] at h ⊢
          rcases h with (h | h) | h
          · exact absurd h.2 (by decide)
          · simp [h]
          · simp [h]))
      refine ⟨by simp, ?_, s', ?_, f2, f3, f4, f5, by rw [f6, g2.cur], f7⟩
      · intro p hp
        rcases List.mem_cons.1 hp with rfl | hp
        · exact .inl (spells_proper h2)
        · exact e2 p hp
      · rw [show n = s1.line from (g2.line.trans hn).symm]
        exact .cons g1 f1

/-! ## The token sequence -/

theorem lexes_ev {C : Cfg} {s s' : St} {t : Tok} (h : Lexes C s t s') : Ev fun k => lex C k s = some (t, s') := h

theorem tokens_step {C : Cfg} {s s' : St} {t : Tok} {st : List Nat} {r : Option (List (Tok × Nat))} (h : Lexes C s t s')
    (ht : t.proper = true ∨ t = .nl) (hr : Ev fun k => tokens C k s' st = some r) :
    Ev fun k => tokens C k s st = some (r.map ((t, s'.line) :: ·)) := by
  refine ((lexes_ev h).and hr).step fun k hk => ?_
  obtain ⟨h1, h2⟩ := hk
  rw [tokens, h1]
  rcases ht with ht | rfl
  · cases t <;> first | (cases ht; done) | (simp only [h2]; rfl)
  · simp only [h2]; rfl

theorem tokens_run {C : Cfg} {s s' : St} {ts : List (Tok × Nat)} {st : List Nat} {r : Option (List (Tok × Nat))} (h : Run C s ts s')
    (ht : ∀ t ∈ ts, t.1.proper = true ∨ t.1 = .nl) (hr : Ev fun k => tokens C k s' st = some r) :
    Ev fun k => tokens C k s st = some (r.map (ts ++ ·)) := by
  induction h with
  | nil s => simpa using hr
  | cons h h' ih =>
    have := tokens_step h (ht _ (List.mem_cons_self)) (ih (fun t h => ht t (by simp [h])) hr)
    refine this.mono fun k hk => ?_
    rw [hk]; simp [Option.map_map, Function.comp_def]

/-- A state that lexes like another. -/
theorem lift_lexes {C : Cfg} {s s1 : St} {st : List Nat} {r : Option (List (Tok × Nat))} (h : ∀ t s2, Lexes C s1 t s2 → Lexes C s t s2)
    (hr : Ev fun k => tokens C k s1 st = some r) : Ev fun k => tokens C k s st = some r := by
  obtain ⟨k0, hr⟩ := hr
  have h0 := hr (k0 + 1) (by omega)
  have : ∃ p, lex C k0 s1 = some p := by
    cases hl : lex C k0 s1 with
    | none =>
      have e : tokens C (k0 + 1) s1 st = none := by simp only [tokens, hl]
      simp only [e] at h0; cases h0
    | some p => exact ⟨p, rfl⟩
  obtain ⟨⟨t, s2⟩, hl⟩ := this
  obtain ⟨m, hm⟩ := h t s2 (.of hl)
  refine ⟨k0 + m + 1, fun k hk => ?_⟩
  have h1 := hr k (by omega)
  obtain ⟨k, rfl⟩ : ∃ j, k = j + 1 := ⟨k - 1, by omega⟩
  have e1 := hm k (by omega)
  have e2 := lex_mono C hl (show k0 ≤ k by omega)
  rw [← h1]
  simp only [tokens, e1, e2]

theorem tokens_indent {C : Cfg} {s s' : St} {n : Nat} {st : List Nat} {r : Option (List (Tok × Nat))} (h : Lexes C s (.indent n) s')
    (hr : Ev fun k => tokens C k s' (n :: st) = some r) : Ev fun k => tokens C k s st = some (r.map ((.indent n, s'.line) :: ·)) := by
  refine ((lexes_ev h).and hr).step fun k hk => ?_
  obtain ⟨h1, h2⟩ := hk
  rw [tokens, h1]
  simp only [h2]
  rfl

theorem tokens_exdent {C : Cfg} {s s' : St} {n i : Nat} {st : List Nat} {r : Option (List (Tok × Nat))} (h : Lexes C s (.exdent n) s') (hn : n ≤ i)
    (hr : Ev fun k => tokens C k { s' with cur := i } st = some r) :
    Ev fun k => tokens C k s (i :: st) = some (r.map ((.exdent n, s'.line) :: ·)) := by
  refine ((lexes_ev h).and hr).step fun k hk => ?_
  obtain ⟨h1, h2⟩ := hk
  rw [tokens, h1]
  simp only [if_neg (show ¬ n > i by omega), h2]
  rfl

theorem tokens_bad {C : Cfg} {s s' : St} {n i : Nat} {st : List Nat} (h : Lexes C s (.exdent n) s') (hn : i < n) :
    Ev fun k => tokens C k s (i :: st) = some none := by
  refine (lexes_ev h).step fun k h1 => ?_
  rw [tokens, h1]
  simp only [if_pos (show n > i by omega)]

theorem lexes_exdent {C : Cfg} {s : St} (hm : s.mid = true) (hx : s.exd = true) (hg : s.ign = 0) (h : s.ind < s.cur) : Lexes C s (.exdent s.ind) s := by
  refine .of (k := 1) ?_
  simp [lex, indentation, hm, exdentation, hx, hg, h]

/-- The EXDENT tokens before a line. -/
theorem exdents {C : Cfg} (open_ : List Nat) : ∀ (s : St), s.mid = true → (s.ind < s.cur → s.exd = true) → s.ign = 0 → s.ind ≤ s.cur → (s.cur :: open_).getLast? = some 0 →
    match close (s.cur :: open_) s.ind with
    | none => Ev fun k => tokens C k s open_ = some none
    | some (m, st') => ∃ open', st' = s.ind :: open' ∧ st'.getLast? = some 0 ∧ ∀ r, (Ev fun k => tokens C k { s with cur := s.ind } open' = some r) →
        Ev fun k => tokens C k s open_ = some (r.map (List.replicate m (.exdent s.ind, s.line) ++ ·)) := by
  induction open_ with
  | nil =>
    intro s hm hx hg hle hb
    have h0 : s.cur = 0 := by simpa using hb
    have : s.ind = s.cur := by omega
    rw [close, if_pos this]
    refine ⟨[], by rw [this], hb, fun r hr => ?_⟩
    have e : ({ s with cur := s.ind } : St) = s := by cases s; simp_all
    rw [e] at hr
    simpa using hr
  | cons i open_ ih =>
    intro s hm hx hg hle hb
    by_cases he : s.ind = s.cur
    · rw [close, if_pos he]
      refine ⟨i :: open_, by rw [he], hb, fun r hr => ?_⟩
      have e : ({ s with cur := s.ind } : St) = s := by cases s; simp_all
      rw [e] at hr
      simpa using hr
    · have hlt : s.ind < s.cur := by omega
      have hL : Lexes C s (.exdent s.ind) s := lexes_exdent hm (hx hlt) hg hlt
      rw [close, if_neg he, if_pos hlt]
      by_cases hi : s.ind ≤ i
      · have := ih { s with cur := i } hm (fun _ => hx hlt) hg hi (by simpa using hb)
        simp only at this
        cases hc : close (i :: open_) s.ind with
        | none =>
          rw [hc] at this
          simpa using tokens_exdent hL hi this
        | some p =>
          obtain ⟨m, st'⟩ := p
          rw [hc] at this
          obtain ⟨open', a1, a2, a3⟩ := this
          refine ⟨open', a1, a2, fun r hr => ?_⟩
          refine (tokens_exdent hL hi (a3 r hr)).mono fun k hk => ?_
          rw [hk]
          simp [List.replicate_succ, Option.map_map, Function.comp_def]
      · rw [close, if_neg (by omega), if_neg (by omega)]
        exact tokens_bad hL (by omega)

/-! ## The stack -/

theorem close_drop {st : List Nat} {n m : Nat} {st' : List Nat} (h : close st n = some (m, st')) : st' = st.drop m := by
  induction st generalizing m with
  | nil => cases h
  | cons t st ih =>
    rw [close] at h
    split at h
    · cases h; rfl
    · split at h
      · cases hc : close st n with
        | none => rw [hc] at h; cases h
        | some p =>
          obtain ⟨m', st''⟩ := p
          rw [hc] at h
          cases h
          exact ih hc
      · cases h

theorem close_zero {st : List Nat} (hs : st.Pairwise (· > ·)) (hb : st.getLast? = some 0) : close st 0 = some (st.length - 1, [0]) := by
  induction st with
  | nil => cases hb
  | cons t st ih =>
    cases st with
    | nil =>
      have : t = 0 := by simpa using hb
      subst this; rfl
    | cons u st =>
      have hu : t > u := (List.pairwise_cons.1 hs).1 u (by simp)
      rw [close, if_neg (by omega), if_pos (by omega), ih (List.pairwise_cons.1 hs).2 (by simpa using hb)]
      simp

/-- The end of the input. -/
theorem tokens_eof {C : Cfg} {s : St} {st : List Nat} (hs : Ready s) (hp : s.pend = [0]) : Ev fun k => tokens C k s st = some (some [(.eof, s.line)]) := by
  have : ∃ s', Lexes C s .eof s' ∧ s'.line = s.line := by
    obtain ⟨s1, h1, h2, h3, h4⟩ := lex_mid C hs
    have ht : (lextoken C s1).1 = 0 ∧ (lextoken C s1).2.line = s.line := by simp [lextoken, lexchar, h2, hp, h1.line]
    refine ⟨(lextoken C s1).2, .of (k := 1) ?_, ht.2⟩
    rw [h4 0]
    simp [ht, token]
  obtain ⟨s', h, hl⟩ := this
  refine (lexes_ev h).step fun k h1 => ?_
  rw [tokens, h1]
  simp only [hl]

theorem tokensOf_closes (last n m : Nat) (is : List (Item Src)) :
    tokensOf last (List.replicate m (.closes n) ++ is) = List.replicate m (.exdent n, nextLine last is) ++ tokensOf last is := by
  have hn : ∀ m, nextLine last (List.replicate m (.closes n) ++ is) = nextLine last is := by
    intro m
    induction m with
    | zero => rfl
    | succ m ih => rw [List.replicate_succ, List.cons_append, nextLine, ih]; intro a h; cases h
  induction m with
  | zero => rfl
  | succ m ih => simp only [List.replicate_succ, List.cons_append, tokensOf, ih, hn]

/-- The whole file. -/
theorem tokens_file {C : Cfg} (hi : C.interactive = false) (hC : 12 ≤ C.maxTok) {n last : Nat} {ls : List (Nat × Src)} {text : List Ch} (f : File C n ls text last)
    (h256 : ∀ l ∈ ls, l.1 < 256) (hz : 0 ∉ text) :
    ∀ (s : St) (open_ : List Nat), s.pend = text → s.mid = false → s.exd = false → s.ign = 0 → s.line = n → (s.cur :: open_).getLast? = some 0 →
      (s.cur :: open_).Pairwise (· > ·) →
      Ev fun k => tokens C k s open_ = some ((blocks (s.cur :: open_) ls).map (tokensOf last)) := by
  induction f with
  | @nil n g hg =>
    intro s open_ hp hm hx hign hn hb hpw
    obtain ⟨k, s', h1, h2, h3, h4, h5⟩ := lineStart_end hi _ hg (Nat.le_refl _) hp
    obtain ⟨s1, a1, a2, a3, a4, a5, a6, a7, a8⟩ := lex_line h1 hm h4 hx (by omega) (by decide)
    rw [h2] at a6
    rw [h3] at a2 a3
    have hl1 : s1.line = _ := a7.trans (h5.trans (by rw [hn]))
    have hex := exdents (C := C) open_ s1 a1 (by rw [a2, a3, a4]; simp [hign]) (a5.trans hign) (by omega) (by rw [a4]; exact hb)
    rw [a3, a4, close_zero hpw hb] at hex
    obtain ⟨open', b1, b2, b3⟩ := hex
    have := b3 _ (tokens_eof (C := C) (s := { s1 with cur := 0, ind := 0 }) ⟨a1, by simp⟩ a6)
    refine (lift_lexes a8 this).mono fun k hk => ?_
    rw [hk, hl1]
    have := tokensOf_closes (n + g.count 10) 0 ((s.cur :: open_).length - 1) []
    rw [List.append_nil] at this
    rw [blocks, Option.map_some, Option.map_some, this]
    rfl
  | @cons n g ind c l ts n' ls text last hg hc1 hc2 hc3 hl f ih =>
    intro s open_ hp hm hx hign hln hb hpw
    have hz1 : 0 ∉ c :: l ++ text := fun h => hz (List.mem_append_right _ (List.mem_append_right _ h))
    have hc4 : c ≠ 0 := fun e => hz1 (by simp [e])
    have hn : ind < 256 := h256 (ind, ⟨n + g.count 10, ts⟩) (by simp)
    obtain ⟨k, s', h1, h2, h3, h4, h5⟩ := lineStart_line hi (n := ind) (rest := l ++ text) ⟨hc1, hc2, hc3, hc4⟩ _ hg (Nat.le_refl _) (by rw [hp]; simp)
    rw [Nat.mod_eq_of_lt hn] at h3
    rw [hln] at h5
    have hline : ∀ (s1 : St) (o : List Nat), Ready s1 → s1.ign = 0 → s1.pend = c :: (l ++ text) → s1.cur = ind → s1.line = n + g.count 10 →
        (ind :: o).getLast? = some 0 → (ind :: o).Pairwise (· > ·) →
        Ev fun k => tokens C k s1 o = some (((blocks (ind :: o) ls).map (tokensOf last)).map (ts ++ ·)) := by
      intro s1 o r1 r2 r3 r4 r5 r6 r7
      -- the flag is cleared before the first token
      have hclear : ∀ k, lex C k s1 = lex C k { s1 with exd := false } := by
        intro k
        cases k with
        | zero => rfl
        | succ k =>
          have i1 : indentation C k s1 = some (none, s1) := by unfold indentation; rw [if_pos r1.1]
          have i2 : indentation C k { s1 with exd := false } = some (none, { s1 with exd := false }) := by unfold indentation; rw [if_pos r1.1]
          rw [lex, lex, i1, i2]
          have : exdentation s1 = exdentation { s1 with exd := false } := by
            unfold exdentation
            by_cases hx1 : s1.exd = true
            · have := r1.2 hx1
              simp [hx1, r2, Nat.not_lt.2 this]
            · have : s1.exd = false := by simpa using hx1
              simp only [this]
              cases s1; simp_all
          simp only [this]
      obtain ⟨e1, e2, s2, q1, q2, q3, q4, q5, q6, q7⟩ := text_run hi hC _ (Nat.le_refl _) hl { s1 with exd := false } text ⟨r1.1, by simp⟩ rfl r2 r5 (by rw [← List.cons_append] at r3; exact r3) hz1
      rw [r4] at q6
      have := ih (fun l h => h256 l (by simp [h])) (fun h => hz1 (List.mem_append_right _ h)) s2 o q2 q3 q4 q5 q7 (by rw [q6]; exact r6) (by rw [q6]; exact r7)
      rw [q6] at this
      exact lift_lexes (s1 := { s1 with exd := false }) (fun t s2 ⟨k, h⟩ => ⟨k, fun m hm => (hclear m).trans (h m hm)⟩) (tokens_run q1 e2 this)
    by_cases hlt : s.cur < ind
    · have hL := lex_indent h1 hm h4 hign (by rw [h3]; exact hlt)
      rw [h3] at hL
      have := hline { unlexchar c { s' with mid := true, ind := ind } with cur := ind } (s.cur :: open_) ⟨rfl, by simp [unlexchar, h4.exd, hx]⟩
        (h4.ign.trans hign) (by simp [unlexchar, h2]) rfl (by simp [unlexchar, hc2, h5]) (by simpa using hb)
        (List.pairwise_cons.2 ⟨fun a ha => by
          rcases List.mem_cons.1 ha with rfl | ha
          · exact hlt
          · have := (List.pairwise_cons.1 hpw).1 a ha; omega, hpw⟩)
      refine (tokens_indent hL this).mono fun k hk => ?_
      rw [hk, blocks, if_pos (by simpa using hlt)]
      simp [Option.map_map, Function.comp_def, tokensOf, nextLine, unlexchar, hc2, h5]
    · obtain ⟨s1, a1, a2, a3, a4, a5, a6, a7, a8⟩ := lex_line h1 hm h4 hx (by omega) hc2
      rw [h2] at a6
      rw [h3] at a2 a3
      have hl1 : s1.line = _ := a7.trans h5
      have hex := exdents (C := C) open_ s1 a1 (by rw [a2, a3, a4]; simp [hign]) (a5.trans hign) (by omega) (by rw [a4]; exact hb)
      rw [a3, a4] at hex
      rw [blocks, if_neg (by simpa using hlt)]
      cases hcl : close (s.cur :: open_) ind with
      | none =>
        rw [hcl] at hex
        exact lift_lexes a8 hex
      | some p =>
        obtain ⟨m, st'⟩ := p
        rw [hcl] at hex
        obtain ⟨open', b1, b2, b3⟩ := hex
        subst b1
        have hd := close_drop hcl
        have := b3 _ (hline { s1 with cur := ind, ind := ind } open' ⟨a1, by simp⟩ (a5.trans hign) a6 rfl hl1 b2 (by rw [hd]; exact hpw.drop))
        refine (lift_lexes a8 this).mono fun k hk => ?_
        rw [hk, hl1]
        simp [Option.map_map, Function.comp_def, tokensOf_closes, tokensOf, nextLine]

end Snek.Parse
