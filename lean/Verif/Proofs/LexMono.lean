import Verif.Proofs.LexTerm
/-!
# The result of a lexer call does not depend on the fuel
-/
namespace Snek.Lex

theorem comment_mono {k : Nat} {s s' : St} (h : comment k s = some s') : comment (k + 1) s = some s' := by
  induction k generalizing s with
  | zero => cases h
  | succ k ih =>
    rw [comment] at h ⊢; (try dsimp only at h ⊢)
    split
    · rename_i hc; rw [if_pos hc] at h; exact h
    · rename_i hc; rw [if_neg hc] at h; exact ih h

theorem spaces_mono {k : Nat} {s : St} {r : Nat × Ch × St} (h : spaces k s = some r) : spaces (k + 1) s = some r := by
  induction k generalizing s r with
  | zero => cases h
  | succ k ih =>
    rw [spaces] at h ⊢; (try dsimp only at h ⊢)
    split
    · rename_i hc; rw [if_pos hc] at h
      split at h
      · rename_i h1; rw [ih h1]; exact h
      · cases h
    · rename_i hc; rw [if_neg hc] at h; exact h

theorem numLoop_mono (C : Cfg) {k : Nat} {n : NState} {t : NClass} {c : Ch} {s : St} {r : Tok × St} (h : numLoop C k n t c s = some r) :
    numLoop C (k + 1) n t c s = some r := by
  induction k generalizing n t c s with
  | zero => cases h
  | succ k ih =>
    rw [numLoop] at h ⊢; (try dsimp only at h ⊢)
    generalize (if t ≠ .underscore then addToken C c s else (true, s)) = a at h ⊢
    split
    · rename_i hc; rw [if_pos hc] at h
      split
      · rename_i h1; rw [h1] at h; exact ih h
      · rename_i h1; rw [h1] at h; exact h
    · rename_i hc; rw [if_neg hc] at h; exact h

theorem strLoop_mono (C : Cfg) (q : Ch) {k : Nat} {s : St} {r : Tok × St} (h : strLoop C q k s = some r) : strLoop C q (k + 1) s = some r := by
  induction k generalizing s with
  | zero => cases h
  | succ k ih =>
    rw [strLoop] at h ⊢; (try dsimp only at h ⊢)
    generalize (if (lexchar s).1 = 92 then escape (lexchar s).2 else (some (lexchar s).1, (lexchar s).2)) = e at h ⊢
    split
    · rename_i hc; rw [if_pos hc] at h; exact h
    · rename_i hc; rw [if_neg hc] at h
      split
      · rename_i hc; rw [if_pos hc] at h; exact h
      · rename_i hc; rw [if_neg hc] at h
        split
        · rename_i h1; rw [h1] at h; exact h
        · rename_i h1; rw [h1] at h
          dsimp only at h
          split
          · rename_i hc; rw [if_pos hc] at h; exact ih h
          · rename_i hc; rw [if_neg hc] at h; exact h

theorem nameLoop_mono (C : Cfg) {k : Nat} {s s' : St} (h : nameLoop C k s = some s') : nameLoop C (k + 1) s = some s' := by
  induction k generalizing s with
  | zero => cases h
  | succ k ih =>
    rw [nameLoop] at h ⊢; (try dsimp only at h ⊢)
    split
    · rename_i hc; rw [if_pos hc] at h; exact ih h
    · rename_i hc; rw [if_neg hc] at h; exact h

theorem trailing_mono (C : Cfg) {k : Nat} {next : List Ch} {a b : Tok} {s : St} {r : Tok × St} (h : trailing C k next a b s = some r) :
    trailing C (k + 1) next a b s = some r := by
  simp only [trailing] at h ⊢
  split at h
  · cases h
  · rename_i h1; rw [spaces_mono h1]; exact h

theorem word_mono (C : Cfg) {k : Nat} {c : Ch} {s : St} {r : Tok × St} (h : word C k c s = some r) : word C (k + 1) c s = some r := by
  simp only [word] at h ⊢
  split
  · rename_i hc; rw [if_pos hc] at h
    split at h
    · cases h
    · rename_i h1; rw [nameLoop_mono C h1]; dsimp only
      split <;> rename_i h2 <;> rw [h2] at h <;> first | exact trailing_mono C h | skip
      · split at h <;> simp_all
      · exact h
  · rename_i hc; rw [if_neg hc] at h; exact h

theorem token_mono (C : Cfg) {k : Nat} {c : Ch} {s : St} {r : Tok × St} (h : token C k c s = some r) : token C (k + 1) c s = some r := by
  have ite : ∀ {P : Prop} [Decidable P] {a b a' b' : Option (Tok × St)}, (if P then a else b) = some r → (a = some r → a' = some r) →
      (b = some r → b' = some r) → (if P then a' else b') = some r := by
    intro P _ a b a' b' h ha hb
    split at h
    · rename_i hp; rw [if_pos hp]; exact ha h
    · rename_i hp; rw [if_neg hp]; exact hb h
  unfold token at h ⊢
  repeat' (with_reducible refine ite h ?_ ?_ <;> clear h <;> intro h)
  all_goals first
    | exact h
    | with_reducible exact word_mono C h
    | exact strLoop_mono C _ h
    | exact numLoop_mono C h

theorem lineStart_mono (C : Cfg) {k : Nat} {s : St} {r : Ch × St} (h : lineStart C k s = some r) : lineStart C (k + 1) s = some r := by
  induction k generalizing s with
  | zero => cases h
  | succ k ih =>
    rw [lineStart] at h ⊢
    split at h
    · cases h
    · rename_i h1; rw [spaces_mono h1]
      (try dsimp only at h ⊢)
      split
      · rename_i hc; rw [if_pos hc] at h; exact h
      · rename_i hc; rw [if_neg hc] at h
        split
        · rename_i hc; rw [if_pos hc] at h; exact ih h
        · rename_i hc; rw [if_neg hc] at h
          split
          · rename_i hc; rw [if_pos hc] at h
            split at h
            · cases h
            · rename_i h2; rw [comment_mono h2]; exact ih h
          · rename_i hc; rw [if_neg hc] at h; exact h

theorem indentation_mono (C : Cfg) {k : Nat} {s : St} {r : Option Tok × St} (h : indentation C k s = some r) :
    indentation C (k + 1) s = some r := by
  unfold indentation at h ⊢
  split
  · rename_i hc; rw [if_pos hc] at h; exact h
  · rename_i hc; rw [if_neg hc] at h
    split at h
    · cases h
    · rename_i h1; rw [lineStart_mono C h1]; exact h

theorem lex_succ (C : Cfg) {k : Nat} {s : St} {r : Tok × St} (h : lex C k s = some r) : lex C (k + 1) s = some r := by
  induction k generalizing s with
  | zero => cases h
  | succ k ih =>
    rw [lex] at h ⊢
    split at h
    · cases h
    · rename_i h1; rw [indentation_mono C h1]; exact h
    · rename_i s1 h1; rw [indentation_mono C h1]; dsimp only
      generalize exdentation s1 = x at h ⊢
      obtain ⟨o, s2⟩ := x
      cases o with
      | some t => exact h
      | none =>
        (try dsimp only at h ⊢)
        split
        · rename_i hc; rw [if_pos hc] at h
          split
          · rename_i hc; rw [if_pos hc] at h; exact ih h
          · rename_i hc; rw [if_neg hc] at h; exact h
        · rename_i hc; rw [if_neg hc] at h
          split
          · rename_i hc; rw [if_pos hc] at h
            split at h
            · cases h
            · rename_i h3; rw [comment_mono h3]; exact ih h
          · rename_i hc; rw [if_neg hc] at h
            split
            · rename_i hc; rw [if_pos hc] at h; exact ih h
            · rename_i hc; rw [if_neg hc] at h; exact token_mono C h

theorem lex_mono (C : Cfg) {k m : Nat} {s : St} {r : Tok × St} (h : lex C k s = some r) (hm : k ≤ m) : lex C m s = some r := by
  induction hm with
  | refl => exact h
  | step _ ih => exact lex_succ C ih

/-- Two calls in the same state return the same. -/
theorem lex_det (C : Cfg) {k m : Nat} {s : St} {r r' : Tok × St} (h : lex C k s = some r) (h' : lex C m s = some r') : r = r' := by
  rcases Nat.le_total k m with hm | hm
  · exact Option.some.inj ((lex_mono C h hm).symm.trans h')
  · exact Option.some.inj (h.symm.trans (lex_mono C h' hm))

end Snek.Lex
