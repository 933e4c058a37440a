import Verif.Proofs.Lex
/-!
# Every part of the lexer returns

With more fuel than there are characters to come (plus the size of a token), provided comments are terminated.
-/
namespace Snek.Lex

theorem lexchar_len (s : St) : (lexchar s).2.pend.length = s.pend.length - 1 := by
  unfold lexchar; split <;> simp_all

theorem lextoken_len (C : Cfg) (s : St) : (lextoken C s).2.pend.length = s.pend.length - 1 := by
  have := congrArg (fun a : Core => a.pend.length) (lextoken_core C s)
  have h2 := congrArg (fun a : Core => a.pend.length) (lexchar_core s)
  exact (this.trans h2.symm).trans (lexchar_len s)

theorem lexchar_ne {s : St} (h : (lexchar s).1 ≠ 0) : 0 < s.pend.length := by
  unfold lexchar at h; split at h <;> simp_all

theorem lextoken_ne {C : Cfg} {s : St} (h : (lextoken C s).1 ≠ 0) : 0 < s.pend.length := by
  rcases lextoken_hd C s with h1 | h1
  · rw [h1, ← lexchar_hd] at h; exact lexchar_ne h
  · exact absurd h1 h

theorem comment_some {k : Nat} {s : St} (hk : s.pend.length < k) (h : 10 ∈ s.pend) : ∃ s', comment k s = some s' := by
  induction k generalizing s with
  | zero => omega
  | succ k ih =>
    simp only [comment]
    split
    · exact ⟨_, rfl⟩
    · rename_i hc
      have hl := lexchar_len s
      cases hp : s.pend with
      | nil => simp [hp] at h
      | cons c l =>
        have e : (lexchar s).1 = c ∧ (lexchar s).2.pend = l := by unfold lexchar; simp [hp]
        rw [e.1] at hc
        refine ih (by rw [hl]; rw [hp] at hk ⊢; simp at hk ⊢; omega) ?_
        rw [e.2]
        rw [hp] at h
        rcases List.mem_cons.1 h with h | h
        · exact absurd h.symm hc
        · exact h

theorem spaces_some {k : Nat} {s : St} (hk : s.pend.length < k) : ∃ n c s', spaces k s = some (n, c, s') ∧ s'.pend.length ≤ s.pend.length ∧
    (c ≠ 0 → s'.pend.length < s.pend.length) := by
  induction k generalizing s with
  | zero => omega
  | succ k ih =>
    simp only [spaces]
    have hl := lexchar_len s
    split
    · rename_i hc
      have := lexchar_ne (s := s) (by rw [hc]; decide)
      obtain ⟨n, c, s', h1, h2, h3⟩ := ih (s := (lexchar s).2) (by omega)
      rw [h1]
      exact ⟨_, _, _, rfl, by omega, fun h => by have := h3 h; omega⟩
    · exact ⟨_, _, _, rfl, by omega, fun h => by have := lexchar_ne h; omega⟩

theorem numLoop_some (C : Cfg) {k : Nat} {n : NState} {t : NClass} {c : Ch} {s : St} (hk : s.pend.length < k) :
    ∃ r, numLoop C k n t c s = some r := by
  induction k generalizing n t c s with
  | zero => omega
  | succ k ih =>
    simp only [numLoop]
    generalize ha : (if t ≠ .underscore then addToken C c s else (true, s)) = a
    have hcore : a.2.pend = s.pend := by rw [← ha]; split <;> simp [addToken]; split <;> rfl
    split
    · have hl := lexchar_len a.2
      split
      · rename_i hn
        have : (lexchar a.2).1 ≠ 0 := by
          intro h0
          rw [h0] at hn
          have : cclass 0 = .other := by decide
          rw [this] at hn
          cases n <;> cases hn
        have := lexchar_ne this
        rw [hcore] at *
        exact ih (by omega)
      · exact ⟨_, rfl⟩
    · exact ⟨_, rfl⟩

theorem escape_len (s : St) : (escape s).2.pend.length ≤ s.pend.length := by
  have h2 : ∀ s : St, (lexchar s).2.pend.length ≤ s.pend.length := fun s => by rw [lexchar_len]; omega
  have h3 := h2 s
  have h4 := h2 (lexchar s).2
  have h5 := h2 (lexchar (lexchar s).2).2
  unfold escape; simp only []
  repeat' split
  all_goals simp only []; omega

theorem escape_text (s : St) : (escape s).2.text = s.text := by
  have h2 : ∀ s : St, (lexchar s).2.text = s.text := fun s => by unfold lexchar; split <;> rfl
  unfold escape; simp only []
  repeat' split
  all_goals simp [h2]

theorem strLoop_some (C : Cfg) (q : Ch) {k : Nat} {s : St} (ht : s.text.length ≤ C.maxTok) (hk : s.pend.length + (C.maxTok - s.text.length) < k) :
    ∃ r, strLoop C q k s = some r := by
  induction k generalizing s with
  | zero => omega
  | succ k ih =>
    simp only [strLoop]
    have hl := lexchar_len s
    have htx : (lexchar s).2.text = s.text := by unfold lexchar; split <;> rfl
    split
    · exact ⟨_, rfl⟩
    · split
      · exact ⟨_, rfl⟩
      · generalize he : (if (lexchar s).1 = 92 then escape (lexchar s).2 else (some (lexchar s).1, (lexchar s).2)) = e
        have e1 : e.2.pend.length ≤ s.pend.length ∧ e.2.text = s.text := by
          rw [← he]; split
          · have := escape_len (lexchar s).2
            exact ⟨by omega, by rw [escape_text, htx]⟩
          · exact ⟨by show (lexchar s).2.pend.length ≤ _; omega, htx⟩
        split
        · exact ⟨_, rfl⟩
        · rename_i c hc
          unfold addToken
          by_cases hf : e.2.text.length = C.maxTok
          · rw [if_pos hf]; exact ⟨_, rfl⟩
          · rw [if_neg hf]
            refine ih ?_ ?_
            · simp; rw [e1.2] at hf ⊢; omega
            · simp; rw [e1.2] at hf ⊢; omega

theorem nameLoop_some (C : Cfg) {k : Nat} {s : St} (hk : s.pend.length < k) : ∃ s', nameLoop C k s = some s' ∧
    s'.pend.length ≤ s.pend.length + 1 := by
  induction k generalizing s with
  | zero => omega
  | succ k ih =>
    simp only [nameLoop]
    have hl := lextoken_len C s
    split
    · rename_i hn
      have : (lextoken C s).1 ≠ 0 := by intro h; rw [h] at hn; exact absurd hn (by decide)
      have := lextoken_ne this
      obtain ⟨s', h1, h2⟩ := ih (s := (lextoken C s).2) (by omega)
      exact ⟨s', h1, by omega⟩
    · refine ⟨_, rfl, ?_⟩
      simp only [unlextoken, unlexchar, List.length_cons]; omega

theorem trailing_some (C : Cfg) {k : Nat} {next : List Ch} {a b : Tok} {s : St} (hk : s.pend.length < k) : ∃ r, trailing C k next a b s = some r := by
  obtain ⟨n, c, s', h, -⟩ := spaces_some hk
  simp only [trailing, h]
  exact ⟨_, rfl⟩

theorem token_some (C : Cfg) {k : Nat} {c : Ch} {s : St} (hk : s.pend.length + C.maxTok + 1 < k) : ∃ r, token C k c s = some r := by
  unfold token
  have hw : ∃ r, word C k c s = some r := by
    unfold word
    split
    · obtain ⟨s', h1, h2⟩ := nameLoop_some C (k := k) (s := s) (by omega)
      rw [h1]
      dsimp only
      split
      · exact trailing_some C (by omega)
      · exact trailing_some C (by omega)
      · exact ⟨_, rfl⟩
      · exact ⟨_, rfl⟩
    · exact ⟨_, rfl⟩
  have hs : ∃ r, string C k c s = some r := strLoop_some C c (s := startToken s) (by simp [startToken]) (by simp [startToken]; omega)
  have hn : ∃ r, number C k c s = some r := numLoop_some C (s := startToken s) (by simp [startToken]; omega)
  have ite : ∀ {P : Prop} [Decidable P] {a b : Option (Tok × St)}, (∃ r, a = some r) → (∃ r, b = some r) → ∃ r, (if P then a else b) = some r := by
    intro P _ a b ha hb; split
    · exact ha
    · exact hb
  repeat' (with_reducible refine ite ?_ ?_)
  all_goals first
    | with_reducible exact hw
    | with_reducible exact hs
    | with_reducible exact hn
    | exact ⟨_, rfl⟩

theorem lineStart_some (C : Cfg) {k : Nat} {s : St} (hk : s.pend.length + 1 < k) (hct : CT s.pend) :
    ∃ c s', lineStart C k s = some (c, s') ∧ s'.pend.length ≤ s.pend.length ∧ (c ≠ 0 → s'.pend.length < s.pend.length) := by
  induction k generalizing s with
  | zero => omega
  | succ k ih =>
    simp only [lineStart]
    obtain ⟨n, c, s', h, h2, h3⟩ := spaces_some (k := k) (s := { s with ind := 0 }) (by show s.pend.length < k; omega)
    have hr := (reads_spaces h).1
    have hct' : CT s'.pend := (Adv.reads hr).ct hct
    rw [h]; dsimp only at h2 h3 ⊢
    split
    · rename_i hc; exact ⟨_, _, rfl, h2, fun h => absurd hc h⟩
    · rename_i hc
      have h3 := h3 hc
      split
      · obtain ⟨c', s'', g1, g2, g3⟩ := ih (s := { s' with ind := n % 256 }) (by dsimp only; omega) hct'
        exact ⟨_, _, g1, by dsimp only at g2; omega, fun h => by have := g3 h; dsimp only at this; omega⟩
      · split
        · rename_i hc35
          have h10 : 10 ∈ s'.pend := by
            obtain ⟨z, hz⟩ := hr.pend
            have := CT.append z hct
            rw [show s.pend = ({ s with ind := 0 } : St).core.pend from rfl, hz] at this
            exact this (List.replicate n 32) s'.core.pend (by simp [hc35])
          obtain ⟨s2, hs2⟩ := comment_some (k := k) (s := { s' with ind := n % 256 }) (by dsimp only; omega) h10
          rw [hs2]; dsimp only
          obtain ⟨a1, a2, -⟩ := adv_comment hs2
          obtain ⟨c', s'', g1, g2, g3⟩ := ih (s := s2) (by dsimp only at a2; omega) (a1.ct hct')
          exact ⟨_, _, g1, by dsimp only at a2; omega, fun h => by have := g3 h; dsimp only at a2; omega⟩
        · exact ⟨_, _, rfl, h2, fun _ => h3⟩

theorem indentation_some (C : Cfg) {k : Nat} {s : St} (hk : s.pend.length + 1 < k) (hct : CT s.pend) :
    ∃ t s', indentation C k s = some (t, s') ∧ (s'.pend.length ≤ s.pend.length ∨ s'.core.hd = 0) ∧ s'.pend.length ≤ s.pend.length + 1 := by
  unfold indentation
  split
  · exact ⟨_, _, rfl, .inl (Nat.le_refl _), Nat.le_succ _⟩
  · obtain ⟨c, s', h, h2, h3⟩ := lineStart_some C hk hct
    rw [h]
    have key : (unlexchar c { s' with mid := true }).pend.length ≤ s.pend.length ∨ (unlexchar c { s' with mid := true }).core.hd = 0 := by
      by_cases hc : c = 0
      · right; subst hc; rfl
      · left; have := h3 hc; simp only [unlexchar, List.length_cons]; omega
    have key2 : (unlexchar c { s' with mid := true }).pend.length ≤ s.pend.length + 1 := by simp only [unlexchar, List.length_cons]; omega
    dsimp only
    split
    · split
      · exact ⟨_, _, rfl, key, key2⟩
      · refine ⟨_, _, rfl, ?_⟩
        split <;> exact ⟨key, key2⟩
    · exact ⟨_, _, rfl, key, key2⟩

/-- A call of the lexer returns. -/
theorem lex_some (C : Cfg) {k : Nat} {s : St} (hk : s.pend.length + C.maxTok + 3 < k) (hct : CT s.pend) : ∃ r, lex C k s = some r := by
  induction k generalizing s with
  | zero => omega
  | succ k ih =>
    simp only [lex]
    obtain ⟨t, s1, h1, h2, h2'⟩ := indentation_some C (k := k) (s := s) (by omega) hct
    have hct1 := (adv_indentation C h1).ct hct
    rw [h1]
    cases t with
    | some t => exact ⟨_, rfl⟩
    | none =>
      dsimp only
      have hx := exdentation_core s1
      generalize exdentation s1 = x at hx
      obtain ⟨o, s2⟩ := x
      cases o with
      | some t => exact ⟨_, rfl⟩
      | none =>
        dsimp only at hx ⊢
        have hp : s2.pend = s1.pend := congrArg Core.pend hx
        have hl := lextoken_len C (startToken s2)
        have hsp : (startToken s2).pend = s2.pend := rfl
        have hct2 : CT (lextoken C (startToken s2)).2.pend :=
          ((show Adv s2.core (lextoken C (startToken s2)).2.core by simpa using Adv.rd s2.core)).ct (by rw [hx]; exact hct1)
        have hz : (lextoken C (startToken s2)).1 ≠ 0 → s1.pend.length ≤ s.pend.length ∧ 0 < s1.pend.length ∧
            (lextoken C (startToken s2)).1 = s1.core.hd := by
          intro hne
          have h5 := lextoken_ne hne
          have h6 : (lextoken C (startToken s2)).1 = s1.core.hd := by
            rcases lextoken_hd C (startToken s2) with h | h
            · rw [h, startToken_core, hx]
            · exact absurd h hne
          refine ⟨h2.resolve_right (fun h => hne (h6.trans h)), by rw [hsp, hp] at h5; exact h5, h6⟩
        generalize hr : lextoken C (startToken s2) = r at *
        obtain ⟨c, s3⟩ := r
        dsimp only at *
        split
        · rename_i hc
          obtain ⟨z1, z2, -⟩ := hz (by rw [hc]; decide)
          split
          · exact ih (by dsimp only; rw [hsp, hp] at hl; omega) hct2
          · exact ⟨_, rfl⟩
        · split
          · rename_i hc
            obtain ⟨z1, z2, z3⟩ := hz (by rw [hc]; decide)
            have h10 : 10 ∈ s3.pend := by
              have h3 : s3.core = s1.core.rd := by
                have := lextoken_core C (startToken s2)
                rw [hr] at this
                rw [startToken_core, hx] at this; exact this
              cases hpp : s1.pend with
              | nil => simp [hpp] at z2
              | cons d l =>
                have : s3.pend = l := by
                  have := congrArg Core.pend h3
                  simp only [St.core, Core.rd, hpp] at this; exact this
                have hd : d = 35 := by
                  have : s1.core.hd = d := by simp [Core.hd, St.core, hpp]
                  rw [← this, ← z3, hc]
                rw [this]
                exact hct1 [] l (by rw [← hd]; exact hpp)
            obtain ⟨s4, hs4⟩ := comment_some (k := k) (s := s3) (by rw [hsp, hp] at hl; omega) h10
            rw [hs4]
            have a2 := (adv_comment hs4).2.1
            refine ih ?_ ((adv_comment_push hs4).ct hct2)
            simp only [unlexchar, List.length_cons]
            rw [hsp, hp] at hl; omega
          · split
            · rename_i hc
              obtain ⟨z1, z2, -⟩ := hz (by rw [hc]; decide)
              exact ih (by rw [hsp, hp] at hl; omega) hct2
            · refine token_some C ?_
              rw [hsp, hp] at hl
              omega

end Snek.Lex
