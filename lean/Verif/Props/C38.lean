import Verif.Proofs.LexMono
import Verif.Spec.Lex
/-!
# C38: lexical analysis terminates
-/
namespace Snek.Lex

theorem Reach.adv {C : Cfg} {text : List Ch} {s : St} (h : Reach C text s) : Adv (St.init text).core s.core := by
  induction h with
  | start => exact .refl _
  | call _ hl ih => exact .trans ih (adv_lex C hl)
  | parser _ _ _ _ _ _ ih => exact ih

/-- Every call of the lexer returns, with one result, for every text in which comments are ended by a newline and every state the
parser can call it in. -/
theorem C38_returns_partial (C : Cfg) (text : List Ch) (hc : CommentsEnd text) (s : St) (hs : Reach C text s) :
    ∃ t s', ∃ k, ∀ m, k ≤ m → lex C m s = some (t, s') := by
  obtain ⟨⟨t, s'⟩, hr⟩ := lex_some C (k := s.pend.length + C.maxTok + 4) (s := s) (by omega) (hs.adv.ct hc)
  exact ⟨t, s', _, fun m hm => lex_mono C hr hm⟩

/-- Each token made of characters and each newline token consumes at least one character of the text, the others none
beyond blanks: the lexer cannot produce such tokens forever. -/
theorem C38_progress (C : Cfg) (s s' : St) (k : Nat) (t : Tok) (h : lex C k s = some (t, s')) :
    real s'.pend ≤ real s.pend ∧ ((t = .nl ∨ t.proper) → real s'.pend < real s.pend) := by
  refine ⟨(adv_lex C h).nz, ?_⟩
  induction k generalizing s with
  | zero => cases h
  | succ k ih =>
    intro ht
    simp only [lex] at h
    have ind_tok : ∀ {k s t s'}, indentation C k s = some (some t, s') → ¬ (t = .nl ∨ t.proper = true) := by
      intro k s t s' h hh
      unfold indentation at h
      split at h
      · cases h
      · split at h
        · cases h
        · dsimp only at h
          split at h
          · split at h
            · cases h; rcases hh with hh | hh <;> cases hh
            · cases h
          · cases h
    have exd_tok : ∀ {s t s'}, exdentation s = (some t, s') → ¬ (t = .nl ∨ t.proper = true) := by
      intro s t s' h hh
      unfold exdentation at h
      split at h
      · split at h
        · cases h; rcases hh with hh | hh <;> cases hh
        · cases h
      · cases h
    split at h
    · cases h
    · rename_i hi; cases h; exact absurd ht (ind_tok hi)
    · rename_i s1 hi
      refine Nat.lt_of_lt_of_le ?_ (adv_indentation C hi).nz
      have hx := exdentation_core s1
      split at h
      · rename_i he; cases h; exact absurd ht (exd_tok he)
      · rename_i s2 he
        rw [he] at hx
        have hx : s2.core = s1.core := hx
        show _ < real s1.core.pend
        rw [← hx]
        have h1 : Adv s2.core (lextoken C (startToken s2)).2.core := by simpa using Adv.rd s2.core
        have h2 : (lextoken C (startToken s2)).1 ≠ 0 → real (lextoken C (startToken s2)).2.pend < real s2.core.pend := by
          intro hne
          have hcore := lextoken_core C (startToken s2)
          have h3 : (lextoken C (startToken s2)).1 = s2.core.hd := (lextoken_hd C (startToken s2)).resolve_right hne
          rw [show (lextoken C (startToken s2)).2.pend = (lextoken C (startToken s2)).2.core.pend from rfl, hcore, startToken_core]
          rw [h3] at hne
          unfold Core.hd at hne
          unfold Core.rd
          cases hp : s2.core.pend with
          | nil => simp [hp] at hne
          | cons c l => simp [hp] at hne; simp [real, hne]
        split at h
        · rename_i hc
          have h2 := h2 (by rw [hc]; decide)
          split at h
          · have := ih _ h ht
            exact Nat.lt_trans this h2
          · cases h; exact h2
        · split at h
          · rename_i hc
            have h2 := h2 (by rw [hc]; decide)
            split at h
            · cases h
            · rename_i s3 hcm
              exact Nat.lt_trans (Nat.lt_of_lt_of_le (ih _ h ht) (adv_comment_push hcm).nz) h2
          · split at h
            · rename_i hc
              exact Nat.lt_trans (ih _ h ht) (h2 (by rw [hc]; decide))
            · by_cases h0 : (lextoken C (startToken s2)).1 = 0
              · rw [h0] at h
                simp only [token, if_true] at h
                cases h
                rcases ht with ht | ht <;> cases ht
              · exact Nat.lt_of_le_of_lt (adv_token C h).nz (h2 h0)

/-- The push-back buffer of five characters never overflows, for any text and any sequence of calls; in fact four are enough. -/
theorem C38_pushback (C : Cfg) (text : List Ch) (s : St) (hs : Reach C text s) : s.over = false ∧ s.back ≤ 4 := by
  obtain ⟨h1, -, h3⟩ := hs.adv.back (by decide : (0 : Nat) ≤ 4) (Nat.zero_le _)
  exact ⟨h3, h1⟩

/-- The claim is false: a comment at the very end of the text is never left. -/
theorem C38_violated_comment (C : Cfg) (body : List Ch) (h : 10 ∉ body) (k : Nat) : lex C k (St.init (35 :: body)) = none := by
  have hcom : ∀ (k : Nat) (s : St), 10 ∉ s.pend → comment k s = none := by
    intro k
    induction k with
    | zero => intro s _; rfl
    | succ k ih =>
      intro s hs
      simp only [comment]
      have h1 : (lexchar s).1 ≠ 10 := by
        unfold lexchar; split
        · exact (by decide : (0 : Ch) ≠ 10)
        · rename_i hp; rw [hp] at hs; intro h; exact hs (by simp at h; simp [h])
      have h2 : 10 ∉ (lexchar s).2.pend := by
        unfold lexchar; split
        · exact hs
        · rename_i hp; rw [hp] at hs; exact fun h => hs (List.mem_cons_of_mem _ h)
      rw [if_neg h1]; exact ih _ h2
  cases k with
  | zero => rfl
  | succ k =>
    have : indentation C k (St.init (35 :: body)) = none := by
      cases k with
      | zero => rfl
      | succ k =>
        cases k with
        | zero => rfl
        | succ k =>
          simp only [indentation, St.init, lineStart, spaces, lexchar]
          have := hcom (k + 1) ⟨body, 0, 1, 0, 0, 0, false, false, [], false⟩ h
          simp [this]
    simp only [lex, this]

/-! A text with comments, layout and operators meets the hypotheses and is read to its end. -/

example : CommentsEnd [120, 32, 35, 97, 10] := by
  intro u v h
  match u with
  | [] => simp at h
  | [_] => simp at h
  | [_, _] => simp at h; simp [← h]
  | [_, _, _] => simp at h
  | [_, _, _, _] => simp at h
  | _ :: _ :: _ :: _ :: _ :: _ => simp at h

/-- `x #a\n`: the name, the newline, the end. -/
example : (do
    let (t1, s1) ← lex ⟨false, 255, true⟩ 300 (St.init [120, 32, 35, 97, 10])
    let (t2, s2) ← lex ⟨false, 255, true⟩ 300 s1
    let (t3, _) ← lex ⟨false, 255, true⟩ 300 s2
    return [t1, t2, t3]) = some [.name [120], .nl, .eof] := by decide +kernel

end Snek.Lex
