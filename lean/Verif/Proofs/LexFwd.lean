import Verif.Proofs.LexMono
import Verif.Spec.Lex
/-!
# What the lexer returns for given characters
-/
namespace Snek.Lex

/-- A statement about all bytes. -/
theorem forall_byte {P : UInt8 → Prop} (h : ∀ n : Fin 256, P (UInt8.ofNat n.val)) (x : UInt8) : P x := by
  have := h ⟨x.toNat, x.toNat_lt⟩
  simpa using this

instance (c : Ch) : Decidable (Digit c) := inferInstanceAs (Decidable (48 ≤ c ∧ c ≤ 57))

theorem Lexes.of {C : Cfg} {k : Nat} {s s' : St} {t : Tok} (h : lex C k s = some (t, s')) : Lexes C s t s' :=
  ⟨k, fun _ hm => lex_mono C h hm⟩

/-- Same variables other than the characters to come. -/
structure Same (s s' : St) : Prop where
  mid : s'.mid = s.mid
  exd : s'.exd = s.exd
  line : s'.line = s.line
  cur : s'.cur = s.cur
  ind : s'.ind = s.ind
  ign : s'.ign = s.ign

theorem Same.refl (s : St) : Same s s := ⟨rfl, rfl, rfl, rfl, rfl, rfl⟩
theorem Same.trans {a b c : St} (h : Same a b) (h' : Same b c) : Same a c :=
  ⟨h'.mid.trans h.mid, h'.exd.trans h.exd, h'.line.trans h.line, h'.cur.trans h.cur, h'.ind.trans h.ind, h'.ign.trans h.ign⟩

theorem Stays.same {s s' s'' : St} {n : Nat} (h : Stays s s' n) (h' : Same s' s'') : Stays s s'' n :=
  ⟨⟨h'.mid.trans h.ready.1, by rw [h'.exd, h'.cur, h'.ind]; exact h.ready.2⟩, h'.line.trans h.line, h'.cur.trans h.cur, h'.ind.trans h.ind, h'.ign.trans h.ign,
    fun e => h'.exd.trans (h.exd e)⟩

theorem Stays.trans {s s' s'' : St} {m n : Nat} (h : Stays s s' m) (h' : Stays s' s'' n) : Stays s s'' n :=
  ⟨h'.ready, h'.line.trans h.line, h'.cur.trans h.cur, h'.ind.trans h.ind, h'.ign, fun e => h'.exd (h.exd e)⟩

theorem lexchar_cons {s : St} {c : Ch} {l : List Ch} (h : s.pend = c :: l) (hc : c ≠ 10) :
    (lexchar s).1 = c ∧ (lexchar s).2.pend = l ∧ (lexchar s).2.text = s.text ∧ Same s (lexchar s).2 := by
  unfold lexchar
  rw [h]
  refine ⟨rfl, rfl, rfl, ⟨rfl, rfl, ?_, rfl, rfl, rfl⟩⟩
  simp [hc]

/-- Reading a character and pushing it back. -/
theorem lexchar_peek {s : St} {c : Ch} {l : List Ch} (h : s.pend = c :: l) :
    (lexchar s).1 = c ∧ (unlexchar c (lexchar s).2).pend = c :: l ∧ (unlexchar c (lexchar s).2).text = s.text ∧ Same s (unlexchar c (lexchar s).2) := by
  unfold lexchar unlexchar
  rw [h]
  refine ⟨rfl, rfl, rfl, ⟨rfl, rfl, ?_, rfl, rfl, rfl⟩⟩
  by_cases hc : c = 10 <;> simp [hc]

theorem lextoken_cons {C : Cfg} {s : St} {c : Ch} {l : List Ch} (h : s.pend = c :: l) (hc : c ≠ 10) (h0 : c ≠ 0) (hr : s.text.length < C.maxTok) :
    (lextoken C s).1 = c ∧ (lextoken C s).2.pend = l ∧ (lextoken C s).2.text = s.text ++ [c] ∧ Same s (lextoken C s).2 := by
  obtain ⟨h1, h2, h3, h4⟩ := lexchar_cons h hc
  unfold lextoken addToken
  simp only [h1, h3, ne_eq, h0, not_false_iff, if_true]
  rw [if_neg (show ¬ s.text.length = C.maxTok by omega)]
  exact ⟨rfl, h2, by simp [h3], ⟨h4.mid, h4.exd, h4.line, h4.cur, h4.ind, h4.ign⟩⟩

/-- Looking at a character with `lextoken` and pushing it back. -/
theorem lextoken_peek {C : Cfg} {s : St} {c : Ch} {l : List Ch} (h : s.pend = c :: l) (h0 : c ≠ 0) (hr : s.text.length < C.maxTok) :
    (lextoken C s).1 = c ∧ (unlextoken c (lextoken C s).2).pend = c :: l ∧ (unlextoken c (lextoken C s).2).text = s.text ∧
      Same s (unlextoken c (lextoken C s).2) := by
  obtain ⟨h1, h2, h3, h4⟩ := lexchar_peek h
  have hne : ¬ (lexchar s).2.text.length = C.maxTok := by
    have : (lexchar s).2.text = s.text := by unfold lexchar; rw [h]
    rw [this]; omega
  unfold lextoken addToken unlextoken
  simp only [h1, ne_eq, h0, not_false_iff, if_true, if_neg hne]
  refine ⟨by simp, h2, ?_, ⟨h4.mid, h4.exd, h4.line, h4.cur, h4.ind, h4.ign⟩⟩
  have : (lexchar s).2.text = s.text := by unfold lexchar; rw [h]
  simp [unlexchar, this]

/-- The common part of a call in the middle of a line. -/
theorem lex_mid (C : Cfg) {s : St} (hs : Ready s) :
    ∃ s1, Stays s s1 s.ign ∧ s1.pend = s.pend ∧ s1.text = [] ∧ ∀ k,
      lex C (k + 1) s = (let r := lextoken C s1
        if r.1 = 10 then
          let s := { r.2 with mid := false }
          if s.ign ≠ 0 then lex C k s else some (.nl, s)
        else if r.1 = 35 then
          match comment k r.2 with
          | none => none
          | some s => lex C k (unlexchar 10 s)
        else if r.1 = 32 then lex C k r.2
        else token C k r.1 r.2) := by
  have hi : ∀ k, indentation C k s = some (none, s) := by intro k; unfold indentation; rw [if_pos hs.1]
  have hex : ∃ s0, exdentation s = (none, s0) ∧ Stays s s0 s.ign ∧ s0.pend = s.pend := by
    unfold exdentation
    split
    · rename_i h
      simp only [Bool.and_eq_true, beq_iff_eq] at h
      rw [if_neg (by have := hs.2 h.1; omega)]
      exact ⟨_, rfl, ⟨⟨hs.1, by simp⟩, rfl, rfl, rfl, rfl, fun _ => rfl⟩, rfl⟩
    · exact ⟨s, rfl, ⟨hs, rfl, rfl, rfl, rfl, id⟩, rfl⟩
  obtain ⟨s0, h1, h2, h3⟩ := hex
  refine ⟨startToken s0, h2.same ⟨rfl, rfl, rfl, rfl, rfl, rfl⟩, h3, rfl, fun k => ?_⟩
  rw [lex, hi]
  simp only [h1]
  rfl

/-- The first character of a token. -/
theorem lex_start {C : Cfg} {s : St} (hs : Ready s) {c : Ch} {l : List Ch} (h : s.pend = c :: l) (h0 : c ≠ 0) (h10 : c ≠ 10) (h35 : c ≠ 35)
    (h32 : c ≠ 32) (hm : 0 < C.maxTok) :
    ∃ s1, Stays s s1 s.ign ∧ s1.pend = l ∧ s1.text = [c] ∧ ∀ k, lex C (k + 1) s = token C k c s1 := by
  obtain ⟨s1, h1, h2, h3, h4⟩ := lex_mid C hs
  obtain ⟨g1, g2, g3, g4⟩ := lextoken_cons (C := C) (h2.trans h) h10 h0 (by rw [h3]; exact hm)
  refine ⟨(lextoken C s1).2, h1.same g4, g2, by rw [g3, h3]; rfl, fun k => ?_⟩
  rw [h4 k]
  simp only [g1, if_neg h10, if_neg h35, if_neg h32]

/-- Spaces between tokens. -/
theorem lex_space {C : Cfg} {s : St} (hs : Ready s) {l : List Ch} (h : s.pend = 32 :: l) (hm : 0 < C.maxTok) :
    ∃ s1, Stays s s1 s.ign ∧ s1.pend = l ∧ ∀ k, lex C (k + 1) s = lex C k s1 := by
  obtain ⟨s1, h1, h2, h3, h4⟩ := lex_mid C hs
  obtain ⟨g1, g2, g3, g4⟩ := lextoken_cons (C := C) (h2.trans h) (by decide) (by decide) (by rw [h3]; exact hm)
  refine ⟨(lextoken C s1).2, h1.same g4, g2, fun k => ?_⟩
  rw [h4 k]
  simp only [g1]
  rfl

theorem lexes_spaces {C : Cfg} (hm : 0 < C.maxTok) {s : St} (hs : Ready s) {l : List Ch} (n : Nat) (h : s.pend = List.replicate n 32 ++ l) :
    ∃ s1, Stays s s1 s.ign ∧ s1.pend = l ∧ ∀ t s', Lexes C s1 t s' → Lexes C s t s' := by
  induction n generalizing s with
  | zero => exact ⟨s, ⟨hs, rfl, rfl, rfl, rfl, id⟩, h, fun _ _ h => h⟩
  | succ n ih =>
    rw [List.replicate_succ, List.cons_append] at h
    obtain ⟨s1, h1, h2, h3⟩ := lex_space (C := C) hs h hm
    obtain ⟨s2, g1, g2, g3⟩ := ih h1.ready h2
    rw [h1.ign] at g1
    refine ⟨s2, h1.trans g1, g2, fun t s' hl => ?_⟩
    obtain ⟨k, hk⟩ := g3 t s' hl
    exact ⟨k + 1, fun m hm => by
      obtain ⟨m, rfl⟩ : ∃ j, m = j + 1 := ⟨m - 1, by omega⟩
      rw [h3 m]; exact hk m (by omega)⟩

/-- Tokens of `token`. -/
theorem lexes_start {C : Cfg} (hm : 0 < C.maxTok) {s : St} (hs : Ready s) {c : Ch} {l : List Ch} (h : s.pend = c :: l)
    (h0 : c ≠ 0) (h10 : c ≠ 10) (h35 : c ≠ 35) (h32 : c ≠ 32) {t : Tok} {l' : List Ch} {ign' : Nat}
    (ht : ∀ s1, s1.pend = l → s1.text = [c] → s1.ign = s.ign → ∃ k s', token C k c s1 = some (t, s') ∧ s'.pend = l' ∧ Same { s1 with ign := ign' } s') :
    ∃ s', Lexes C s t s' ∧ s'.pend = l' ∧ Stays s s' ign' := by
  obtain ⟨s1, h1, h2, h3, h4⟩ := lex_start (C := C) hs h h0 h10 h35 h32 hm
  obtain ⟨k, s', g1, g2, g3⟩ := ht s1 h2 h3 h1.ign
  refine ⟨s', .of (k := k + 1) (by rw [h4]; exact g1), g2, ?_⟩
  have : Stays s { s1 with ign := ign' } ign' := ⟨h1.ready, h1.line, h1.cur, h1.ind, rfl, h1.exd⟩
  exact this.same g3

/-- The number automaton on a string. -/
def nrun : NState → List Ch → Option NState
  | n, [] => some n
  | n, c :: l => match nstep n (cclass c) with
    | some n' => nrun n' l
    | none => none

theorem cclass_underscore (c : Ch) : cclass c = .underscore ↔ c = 95 := by
  unfold cclass
  constructor
  · intro h
    repeat' (split at h)
    all_goals first | assumption | cases h
  · rintro rfl; decide

theorem numAdd {C : Cfg} {c0 : Ch} {s : St} (h : s.text.length + ([c0].filter (· ≠ 95)).length ≤ C.maxTok) :
    (if cclass c0 ≠ .underscore then addToken C c0 s else (true, s)) = (true, { s with text := s.text ++ [c0].filter (· ≠ 95) }) := by
  by_cases hu : c0 = 95
  · subst hu
    simp [show cclass 95 = .underscore by decide]
  · have hf : [c0].filter (· ≠ 95) = [c0] := List.filter_cons_of_pos (by simpa using hu)
    rw [hf] at h ⊢
    simp only [List.length_cons, List.length_nil] at h
    rw [if_pos (fun h => hu ((cclass_underscore _).1 h))]
    unfold addToken
    rw [if_neg (by omega)]

theorem numLoop_fwd (C : Cfg) : ∀ (w : List Ch) (n n' : NState) (c0 c : Ch) (s : St) (rest : List Ch),
    nrun n w = some n' → s.pend = w ++ c :: rest → nstep n' (cclass c) = none →
    s.text.length + ((c0 :: w).filter (· ≠ 95)).length ≤ C.maxTok →
    ∃ s', numLoop C (w.length + 1) n (cclass c0) c0 s = some (.number (s.text ++ (c0 :: w).filter (· ≠ 95)), s') ∧ s'.pend = c :: rest ∧ Same s s' := by
  intro w
  induction w with
  | nil =>
    intro n n' c0 c s rest hr hp hs hl
    simp only [nrun, Option.some.injEq] at hr
    subst hr
    simp only [numLoop, List.length_nil]
    rw [numAdd hl]
    obtain ⟨h1, h2, h3, h4⟩ := lexchar_peek (s := { s with text := s.text ++ [c0].filter (· ≠ 95) }) (c := c) (l := rest) hp
    simp only [h1, hs, h3]
    exact ⟨_, by simp, h2, ⟨h4.mid, h4.exd, h4.line, h4.cur, h4.ind, h4.ign⟩⟩
  | cons d w ih =>
    intro n n' c0 c s rest hr hp hs hl
    simp only [nrun] at hr
    cases hn : nstep n (cclass d) with
    | none => rw [hn] at hr; cases hr
    | some n1 =>
      rw [hn] at hr
      dsimp only at hr
      have hd10 : d ≠ 10 := by
        rintro rfl
        revert hn
        cases n <;> simp [nstep, show cclass 10 = .other by decide]
      have hf : (c0 :: d :: w).filter (· ≠ 95) = [c0].filter (· ≠ 95) ++ (d :: w).filter (· ≠ 95) := by
        rw [← List.filter_append]; rfl
      rw [hf, List.length_append] at hl
      rw [hf]
      rw [List.length_cons, numLoop]
      dsimp only
      rw [numAdd (by omega)]
      obtain ⟨h1, h2, h3, h4⟩ := lexchar_cons (s := { s with text := s.text ++ [c0].filter (· ≠ 95) }) (c := d) (l := w ++ c :: rest) hp hd10
      simp only [h1, hn, if_true]
      obtain ⟨s', g1, g2, g3⟩ := ih n1 n' d c _ rest hr h2 hs (by rw [h3, List.length_append]; omega)
      refine ⟨s', by rw [g1, h3, List.append_assoc], g2, Same.trans ?_ g3⟩
      exact ⟨h4.mid, h4.exd, h4.line, h4.cur, h4.ind, h4.ign⟩

theorem isName_first (c : Ch) : isName c true = true ↔ (c = 95 ∨ 128 ≤ c ∨ (65 ≤ c ∧ c ≤ 90) ∨ (97 ≤ c ∧ c ≤ 122)) :=
  forall_byte (P := fun c => isName c true = true ↔ (c = 95 ∨ 128 ≤ c ∨ (65 ≤ c ∧ c ≤ 90) ∨ (97 ≤ c ∧ c ≤ 122))) (by decide +kernel) c

theorem isName_rest (c : Ch) : isName c false = true ↔ (c = 95 ∨ 128 ≤ c ∨ (65 ≤ c ∧ c ≤ 90) ∨ (97 ≤ c ∧ c ≤ 122) ∨ (48 ≤ c ∧ c ≤ 57) ∨ c = 46) :=
  forall_byte (P := fun c => isName c false = true ↔ (c = 95 ∨ 128 ≤ c ∨ (65 ≤ c ∧ c ≤ 90) ∨ (97 ≤ c ∧ c ≤ 122) ∨ (48 ≤ c ∧ c ≤ 57) ∨ c = 46))
    (by decide +kernel) c

theorem nameLoop_fwd (C : Cfg) (w : List Ch) : ∀ (s : St) (c : Ch) (rest : List Ch), s.pend = w ++ c :: rest → (∀ x ∈ w, isName x false = true) →
    isName c false = false → c ≠ 0 → s.text.length + w.length < C.maxTok →
    ∃ s', nameLoop C (w.length + 1) s = some s' ∧ s'.pend = c :: rest ∧ s'.text = s.text ++ w ∧ Same s s' := by
  induction w with
  | nil =>
    intro s c rest hp _ hc h0 hl
    obtain ⟨h1, h2, h3, h4⟩ := lextoken_peek (C := C) (s := s) (c := c) (l := rest) hp h0 (by simpa using hl)
    refine ⟨_, ?_, h2, by rw [h3, List.append_nil], h4⟩
    simp only [List.length_nil, nameLoop, h1, hc]
    rfl
  | cons d w ih =>
    intro s c rest hp hw hc h0 hl
    have hd := hw d (by simp)
    simp only [List.length_cons] at hl
    obtain ⟨h1, h2, h3, h4⟩ := lextoken_cons (C := C) (s := s) (c := d) (l := w ++ c :: rest) hp (by rintro rfl; exact absurd hd (by decide))
      (by rintro rfl; exact absurd hd (by decide)) (by omega)
    obtain ⟨s', g1, g2, g3, g4⟩ := ih _ c rest h2 (fun x hx => hw x (by simp [hx])) hc h0 (by rw [h3]; simp; omega)
    refine ⟨s', ?_, g2, by rw [g3, h3]; simp, h4.trans g4⟩
    rw [List.length_cons, nameLoop]
    simp only [h1, hd, if_true]
    exact g1

theorem spaces_fwd (n : Nat) : ∀ (s : St) (c : Ch) (l : List Ch), s.pend = List.replicate n 32 ++ c :: l → c ≠ 32 →
    ∃ s', spaces (n + 1) s = some (n, c, s') ∧ s'.pend = l ∧ s'.text = s.text ∧ Same s (unlexchar c s') := by
  induction n with
  | zero =>
    intro s c l hp hc
    obtain ⟨h1, h2, h3, h4⟩ := lexchar_peek (s := s) (c := c) (l := l) (by simpa using hp)
    have hl : (lexchar s).2.pend = l := by simpa [unlexchar] using h2
    have ht : (lexchar s).2.text = s.text := by simpa [unlexchar] using h3
    exact ⟨_, by simp only [spaces, h1, if_neg hc], hl, ht, h4⟩
  | succ n ih =>
    intro s c l hp hc
    rw [List.replicate_succ, List.cons_append] at hp
    obtain ⟨h1, h2, h3, h4⟩ := lexchar_cons hp (by decide)
    obtain ⟨s', g1, g2, g3, g4⟩ := ih _ c l h2 hc
    refine ⟨s', ?_, g2, g3.trans h3, h4.trans g4⟩
    rw [spaces]
    simp only [h1, if_true, g1]

/-- Pushing back restores everything. -/
theorem unmatch_fwd (done : List Ch) (s : St) (h : 10 ∉ done) : (unmatch done s).pend = done.reverse ++ s.pend ∧ Same s (unmatch done s) := by
  induction done generalizing s with
  | nil => exact ⟨rfl, .refl _⟩
  | cons c l ih =>
    simp only [List.mem_cons, not_or] at h
    obtain ⟨h1, h2⟩ := ih (unlextoken c s) h.2
    refine ⟨by rw [unmatch, h1]; simp [unlextoken, unlexchar], ?_⟩
    rw [unmatch]
    refine Same.trans (b := unlextoken c s) ⟨rfl, rfl, ?_, rfl, rfl, rfl⟩ h2
    simp [unlextoken, unlexchar, Ne.symm h.1]

/-- The trailing word. `s` is the state after `c` has been read; the text to come from there ends with a newline. -/
theorem matchWord_fwd (C : Cfg) (sp : Bool) (ns : List Ch) : ∀ (c : Ch) (done : List Ch) (s s0 : St), ns ≠ [] → 0 ∉ ns → 10 ∉ ns → 10 ∉ done →
    Same s0 (unlexchar c s) → s.text.length + ns.length ≤ C.maxTok + 1 → 10 ∈ c :: s.pend → 0 ∉ c :: s.pend →
    (ns <+: c :: s.pend → ∃ s', matchWord C sp c done ns s = (true, s') ∧ ns ++ s'.pend = c :: s.pend ∧ Same s0 s') ∧
    (¬ ns <+: c :: s.pend → ∃ s', matchWord C sp c done ns s = (false, s') ∧
      s'.pend = (if sp then [32] else []) ++ done.reverse ++ c :: s.pend ∧ Same s0 s') := by
  induction ns with
  | nil => intro c done s s0 h; exact absurd rfl h
  | cons n ns ih =>
    intro c done s s0 _ h0 h10 hdone hsame hroom hnl hz
    simp only [List.mem_cons, not_or] at h0 h10
    simp only [List.length_cons] at hroom
    by_cases hcn : c = n
    · subst hcn
      simp only [matchWord, ne_eq, not_true_eq_false, if_false, List.cons_prefix_cons, true_and]
      have hs' : Same s0 s := by
        refine Same.trans hsame ⟨rfl, rfl, ?_, rfl, rfl, rfl⟩
        simp [unlexchar, Ne.symm h10.1]
      cases ns with
      | nil => exact ⟨fun _ => ⟨s, rfl, rfl, hs'⟩, fun h => absurd List.nil_prefix h⟩
      | cons m ns =>
        have hmem : 10 ∈ s.pend := by
          rcases List.mem_cons.1 hnl with h | h
          · exact absurd h h10.1
          · exact h
        obtain ⟨d, l, hdl⟩ : ∃ d l, s.pend = d :: l := by
          cases hp : s.pend with
          | nil => rw [hp] at hmem; cases hmem
          | cons d l => exact ⟨d, l, rfl⟩
        simp only [List.length_cons] at hroom
        simp only [List.mem_cons, not_or] at hz
        have hd0 : d ≠ 0 := by rintro rfl; exact hz.2 (by rw [hdl]; simp)
        obtain ⟨g1, g2, g3, g4⟩ := lextoken_peek (C := C) hdl hd0 (by omega)
        have hp2 : (lextoken C s).2.pend = l := by simpa [unlextoken, unlexchar] using g2
        have hsd : Same s (unlexchar d (lextoken C s).2) := ⟨g4.mid, g4.exd, g4.line, g4.cur, g4.ind, g4.ign⟩
        have ht2 : (lextoken C s).2.text.length = s.text.length + 1 := by
          unfold lextoken addToken lexchar
          rw [hdl]
          simp only [ne_eq, hd0, not_false_iff, if_true, if_neg (show ¬ s.text.length = C.maxTok by omega)]
          simp
        have key := ih d (c :: done) (lextoken C s).2 s0 (by simp) h0.2 h10.2 (by simp; exact ⟨h10.1, hdone⟩) (hs'.trans hsd)
          (by rw [ht2]; simp only [List.length_cons]; omega) (by rw [hp2, ← hdl]; exact hmem) (by rw [hp2, ← hdl]; exact hz.2)
        rw [g1]
        rw [hp2, ← hdl] at key
        refine ⟨fun h => ?_, fun h => ?_⟩
        · obtain ⟨s', k1, k2, k3⟩ := key.1 h
          exact ⟨s', k1, by rw [List.cons_append, k2], k3⟩
        · obtain ⟨s', k1, k2, k3⟩ := key.2 h
          exact ⟨s', k1, by rw [k2]; simp, k3⟩
    · refine ⟨fun h => absurd (List.cons_prefix_cons.1 h).1.symm hcn, fun _ => ?_⟩
      simp only [matchWord, ne_eq, hcn, not_false_iff, if_true]
      obtain ⟨u1, u2⟩ := unmatch_fwd done (unlextoken c s) hdone
      have u3 : Same s0 (unmatch done (unlextoken c s)) := Same.trans (b := unlextoken c s) ⟨hsame.mid, hsame.exd, hsame.line, hsame.cur, hsame.ind, hsame.ign⟩ u2
      refine ⟨_, rfl, ?_, ?_⟩
      · have u4 : (unmatch done (unlextoken c s)).pend = done.reverse ++ c :: s.pend := u1
        generalize unmatch done (unlextoken c s) = s2 at *
        cases sp
        · simp [u4]
        · simp [u4, unlextoken, unlexchar]
      · cases sp
        · exact u3
        · exact u3.trans ⟨rfl, rfl, by simp [unlextoken, unlexchar], rfl, rfl, rfl⟩

theorem trailing_fwd (C : Cfg) (next : List Ch) (a b : Tok) (n : Nat) (s : St) (c : Ch) (l : List Ch) (hp : s.pend = List.replicate n 32 ++ c :: l)
    (hc : c ≠ 32) (hn : next ≠ []) (h0 : 0 ∉ next) (h10 : 10 ∉ next) (hroom : s.text.length + 1 + next.length ≤ C.maxTok)
    (hnl : 10 ∈ c :: l) (hz : 0 ∉ c :: l) :
    ∃ s', trailing C (n + 1) next a b s = some (if next <+: c :: l then b else a, s') ∧ Same s s' ∧
      (next <+: c :: l → next ++ s'.pend = c :: l) ∧ (¬ next <+: c :: l → s'.pend = List.replicate (min n 1) 32 ++ c :: l) := by
  obtain ⟨s1, h1, h2, h3, h4⟩ := spaces_fwd n s c l hp hc
  simp only [trailing, h1]
  generalize hs2 : (if decide (n ≠ 0) = true then (addToken C 32 s1).2 else s1) = s2
  have e2 : s2.pend = s1.pend ∧ s2.text.length ≤ s1.text.length + 1 ∧ Same s1 s2 ∧ Same (unlexchar c s1) (unlexchar c s2) := by
    rw [← hs2]; unfold addToken; repeat' split
    all_goals exact ⟨rfl, by simp, ⟨rfl, rfl, rfl, rfl, rfl, rfl⟩, ⟨rfl, rfl, rfl, rfl, rfl, rfl⟩⟩
  have e3 : (addToken C c s2).2.pend = s2.pend ∧ (addToken C c s2).2.text.length ≤ s2.text.length + 1 ∧
      Same (unlexchar c s2) (unlexchar c (addToken C c s2).2) := by
    unfold addToken; split
    all_goals exact ⟨rfl, by simp, ⟨rfl, rfl, rfl, rfl, rfl, rfl⟩⟩
  have hpend : (addToken C c s2).2.pend = l := e3.1.trans (e2.1.trans h2)
  have key := matchWord_fwd C (decide (n ≠ 0)) next c [] (addToken C c s2).2 s hn h0 h10 (by simp) (h4.trans (e2.2.2.2.trans e3.2.2))
    (by have := e2.2.1; have := e3.2.1; rw [h3] at e2; omega) (by rw [hpend]; exact hnl) (by rw [hpend]; exact hz)
  rw [hpend] at key
  by_cases hpre : next <+: c :: l
  · obtain ⟨s', k1, k2, k3⟩ := key.1 hpre
    rw [k1]
    exact ⟨s', by simp [hpre], k3, fun _ => k2, fun h => absurd hpre h⟩
  · obtain ⟨s', k1, k2, k3⟩ := key.2 hpre
    rw [k1]
    refine ⟨s', by simp [hpre], k3, fun h => absurd h hpre, fun _ => ?_⟩
    rw [k2]
    cases n <;> simp

end Snek.Lex
