import Verif.Proofs.Lex
import Verif.Spec.Lex
/-!
# What is left in the push-back buffer at the end of a line and at the end of the text
-/
namespace Snek.Lex
open Snek.Vm

theorem tok_checkEqual (C : Cfg) (t : Tok) (op : BinOp) (s : St) : (checkEqual C t op s).1 = t ∨ ∃ a, (checkEqual C t op s).1 = .assign a := by
  unfold checkEqual; simp only []
  split
  · exact .inl rfl
  · exact .inr ⟨_, rfl⟩

/-- Not a token of the layout: end of line, end of text, change of indentation. -/
def plain : Tok → Bool
  | .nl => false
  | .eof => false
  | .indent _ => false
  | .exdent _ => false
  | _ => true

/-- The same as a proposition. -/
abbrev Plain (t : Tok) : Prop := plain t = true

theorem plain_checkEqual (C : Cfg) {t : Tok} (ht : Plain t) (op : BinOp) (s : St) : Plain (checkEqual C t op s).1 := by
  rcases tok_checkEqual C t op s with h | ⟨a, h⟩
  · rw [h]; exact ht
  · rw [h]; rfl

theorem plain_two (C : Cfg) (c : Ch) {f g : St → Tok × St} (hf : ∀ s, Plain (f s).1) (hg : ∀ s, Plain (g s).1) (s : St) : Plain (two C c f g s).1 := by
  unfold two; simp only []
  split
  · exact hf _
  · exact hg _

theorem plain_angle (C : Cfg) (c : Ch) (op : BinOp) (e p : Vm.CmpOp) (s : St) : Plain (angle C c op e p s).1 := by
  unfold angle; simp only []
  split
  · exact plain_checkEqual C rfl _ _
  · split <;> exact rfl

theorem plain_numLoop (C : Cfg) {k : Nat} {n : NState} {t : NClass} {c : Ch} {s s' : St} {tk : Tok}
    (h : numLoop C k n t c s = some (tk, s')) : Plain tk := by
  induction k generalizing n t c s with
  | zero => cases h
  | succ k ih =>
    simp only [numLoop] at h
    generalize (if t ≠ .underscore then addToken C c s else (true, s)) = a at h
    cases ha : a.1 with
    | false => simp only [ha, Bool.false_eq_true, if_false] at h; cases h; rfl
    | true =>
      simp only [ha, if_true] at h
      split at h
      · exact ih h
      · cases h; rfl

theorem plain_strLoop (C : Cfg) (q : Ch) {k : Nat} {s s' : St} {tk : Tok} (h : strLoop C q k s = some (tk, s')) : Plain tk := by
  induction k generalizing s with
  | zero => cases h
  | succ k ih =>
    simp only [strLoop] at h
    repeat' split at h
    all_goals first
      | exact ih h
      | (cases h; exact rfl)

theorem plain_trailing (C : Cfg) {k : Nat} {next : List Ch} {a b : Tok} {s s' : St} {tk : Tok} (ha : Plain a) (hb : Plain b)
    (h : trailing C k next a b s = some (tk, s')) : Plain tk := by
  simp only [trailing] at h
  split at h
  · cases h
  · simp only [Option.some.injEq, Prod.mk.injEq] at h
    rw [← h.1]
    generalize (matchWord C _ _ _ _ _).1 = r
    cases r
    · exact ha
    · exact hb

theorem plain_word (C : Cfg) {k : Nat} {c : Ch} {s s' : St} {tk : Tok} (h : word C k c s = some (tk, s')) : Plain tk := by
  simp only [word] at h
  split at h
  · split at h
    · cases h
    · split at h
      · exact plain_trailing C rfl rfl h
      · exact plain_trailing C rfl rfl h
      · cases h; exact rfl
      · cases h; exact rfl
  · cases h; exact rfl

theorem plain_string (C : Cfg) {k : Nat} {q : Ch} {s s' : St} {tk : Tok} (h : string C k q s = some (tk, s')) : Plain tk :=
  plain_strLoop C (s := startToken s) _ h

theorem plain_number (C : Cfg) {k : Nat} {c : Ch} {s s' : St} {tk : Tok} (h : number C k c s = some (tk, s')) : Plain tk :=
  plain_numLoop C (s := startToken s) h

theorem plain_token (C : Cfg) {k : Nat} {c : Ch} {s s' : St} {tk : Tok} (hc : c ≠ 0) (h : token C k c s = some (tk, s')) : Plain tk := by
  unfold token at h
  rw [if_neg hc] at h
  repeat' (with_reducible refine ite_elim h ?_ ?_ <;> clear h <;> intro h)
  all_goals first
    | with_reducible exact plain_word C h
    | with_reducible exact plain_string C h
    | with_reducible exact plain_number C h
    | skip
  all_goals
    have e := congrArg Prod.fst (Option.some.inj h)
    have e : _ = tk := e
    rw [← e]
    clear e h
    first
    | ((with_reducible refine plain_checkEqual C ?_ _ _); rfl)
    | with_reducible exact plain_angle C _ _ _ _ _
    | ((with_reducible refine plain_two C _ ?_ ?_ _) <;> intro _ <;> first | (refine plain_checkEqual C ?_ _ _; rfl) | rfl)
    | rfl

/-- After the end of a line nothing is left of what was pushed back. -/
theorem lex_nl_back (C : Cfg) {k : Nat} {s s' : St} (ha : NlLast s.core) (h : lex C k s = some (.nl, s')) : s'.back = 0 := by
  induction k generalizing s with
  | zero => cases h
  | succ k ih =>
    simp only [lex] at h
    split at h
    · cases h
    · rename_i t s1 hi
      exfalso
      unfold indentation at hi
      cases h
      split at hi
      · cases hi
      · split at hi
        · cases hi
        · simp only [] at hi
          split at hi
          · split at hi
            · cases hi
            · cases hi
          · cases hi
    · rename_i s1 hi
      have h1 := (adv_indentation C hi).last ha
      have hx := exdentation_core s1
      split at h
      · rename_i t s2 he
        exfalso
        cases h
        unfold exdentation at he
        split at he
        · split at he <;> cases he
        · cases he
      · rename_i s2 he
        rw [he] at hx
        have hx : s2.core = s1.core := hx
        rw [← hx] at h1
        have hr := lextoken_core C (startToken s2)
        simp only [startToken_core] at hr
        split at h
        · rename_i h10
          split at h
          · exact ih (s := { (lextoken C (startToken s2)).2 with mid := false }) (by show NlLast (lextoken C (startToken s2)).2.core; rw [hr]; exact h1.rd) h
          · cases h
            have hd : s2.core.hd = 10 := by
              rcases lextoken_hd C (startToken s2) with e | e
              · rw [startToken_core] at e; rw [← e]; exact h10
              · rw [h10] at e; cases e
            have := h1.rd_nl hd
            rw [← hr] at this
            exact this
        · split at h
          · split at h
            · cases h
            · rename_i s3 hc
              refine ih ?_ h
              exact (adv_comment_push hc).last (by rw [hr]; exact h1.rd)
          · split at h
            · exact ih (by rw [hr]; exact h1.rd) h
            · exfalso
              by_cases h0 : (lextoken C (startToken s2)).1 = 0
              · rw [h0] at h; unfold token at h; rw [if_pos rfl] at h; cases h
              · exact absurd (plain_token C h0 h) (by simp [Plain, plain])

/-- At most one character was pushed back. -/
def One (a : Core) : Prop := a.back ≤ 1 ∧ a.back ≤ a.pend.length

theorem One.rd {a : Core} (h : One a) : a.rd.back = 0 ∧ One a.rd := by
  obtain ⟨g1, g2, -⟩ := a.rd_back h.2
  have := h.1
  refine ⟨by omega, by omega, g2⟩

theorem One.un {a : Core} (h : a.back = 0) (c : Ch) : One (a.un c) := ⟨by simp [Core.un, h], by simp [Core.un, h]⟩

theorem one_spaces {k n : Nat} {c : Ch} {s s' : St} (ha : One s.core) (h : spaces k s = some (n, c, s')) : s'.back = 0 ∧ One s'.core := by
  induction k generalizing s n with
  | zero => cases h
  | succ k ih =>
    simp only [spaces] at h
    have h1 := ha.rd
    rw [← lexchar_core] at h1
    split at h
    · split at h
      · rename_i e; cases h; exact ih h1.2 e
      · cases h
    · cases h; exact h1

theorem one_comment {k : Nat} {s s' : St} (ha : One s.core) (h : comment k s = some s') : s'.back = 0 ∧ One s'.core := by
  induction k generalizing s with
  | zero => cases h
  | succ k ih =>
    simp only [comment] at h
    have h1 := ha.rd
    rw [← lexchar_core] at h1
    split at h
    · cases h; exact h1
    · exact ih h1.2 h

theorem one_lineStart (C : Cfg) {k : Nat} {c : Ch} {s s' : St} (ha : One s.core) (h : lineStart C k s = some (c, s')) : s'.back = 0 ∧ One s'.core := by
  induction k generalizing s with
  | zero => cases h
  | succ k ih =>
    simp only [lineStart] at h
    split at h
    · cases h
    · rename_i n c' s1 hsp
      have h1 := one_spaces (s := { s with ind := 0 }) ha hsp
      split at h
      · cases h; exact h1
      · split at h
        · exact ih (s := { s1 with ind := n % 256 }) h1.2 h
        · split at h
          · split at h
            · cases h
            · rename_i s2 hc
              exact ih (one_comment (s := { s1 with ind := n % 256 }) h1.2 hc).2 h
          · cases h; exact h1

theorem one_indentation (C : Cfg) {k : Nat} {t : Option Tok} {s s' : St} (ha : One s.core) (h : indentation C k s = some (t, s')) : One s'.core := by
  unfold indentation at h
  split at h
  · cases h; exact ha
  · split at h
    · cases h
    · rename_i c s1 hl
      have h1 := one_lineStart C ha hl
      have h2 : One (s1.core.un c) := One.un h1.1 c
      simp only [] at h
      split at h
      · split at h
        · cases h; exact h2
        · cases h; split <;> exact h2
      · cases h; exact h2

/-- If at most one character was pushed back, tokens for layout keep it so, and at the end of the text nothing is left. -/
theorem lex_end_back (C : Cfg) {k : Nat} {t : Tok} {s s' : St} (ha : One s.core) (h : lex C k s = some (t, s')) :
    (t = .eof → s'.back = 0) ∧ ((∃ n, t = .indent n ∨ t = .exdent n) → One s'.core) := by
  induction k generalizing s with
  | zero => cases h
  | succ k ih =>
    simp only [lex] at h
    split at h
    · cases h
    · rename_i t1 s1 hi
      cases h
      refine ⟨?_, fun _ => one_indentation C ha hi⟩
      rintro rfl
      exfalso
      unfold indentation at hi
      split at hi
      · cases hi
      · split at hi
        · cases hi
        · simp only [] at hi
          split at hi
          · split at hi <;> cases hi
          · cases hi
    · rename_i s1 hi
      have h1 := one_indentation C ha hi
      have hx := exdentation_core s1
      split at h
      · rename_i t1 s2 he
        rw [he] at hx
        have hx : s2.core = s1.core := hx
        cases h
        refine ⟨?_, fun _ => by rw [hx]; exact h1⟩
        rintro rfl
        exfalso
        unfold exdentation at he
        split at he
        · split at he <;> cases he
        · cases he
      · rename_i s2 he
        rw [he] at hx
        have hx : s2.core = s1.core := hx
        rw [← hx] at h1
        have h2 := h1.rd
        have hr := lextoken_core C (startToken s2)
        simp only [startToken_core] at hr
        rw [← hr] at h2
        split at h
        · split at h
          · exact ih (s := { (lextoken C (startToken s2)).2 with mid := false }) h2.2 h
          · cases h; exact ⟨(fun e => by cases e), (fun ⟨n, e⟩ => by rcases e with e | e <;> cases e)⟩
        · split at h
          · split at h
            · cases h
            · rename_i s3 hc
              exact ih (s := unlexchar 10 s3) (by rw [unlexchar_core]; exact One.un (one_comment h2.2 hc).1 10) h
          · split at h
            · exact ih h2.2 h
            · by_cases h0 : (lextoken C (startToken s2)).1 = 0
              · rw [h0] at h; unfold token at h; rw [if_pos rfl] at h; cases h
                exact ⟨fun _ => h2.1, (fun ⟨n, e⟩ => by rcases e with e | e <;> cases e)⟩
              · have hp := plain_token C h0 h
                refine ⟨fun e => ?_, fun ⟨n, e⟩ => ?_⟩
                · subst e; exact absurd hp (by simp [Plain, plain])
                · rcases e with rfl | rfl <;> exact absurd hp (by simp [Plain, plain])

theorem NlLast.reach {C : Cfg} {text : List Ch} {s : St} (h : Reach C text s) : NlLast s.core := by
  induction h with
  | start => exact ⟨by simp [St.init, St.core], by simp [St.init, St.core], fun u v _ => by simp [St.init, St.core]⟩
  | call _ h ih => exact (adv_lex C h).last ih
  | parser _ _ _ _ _ _ ih => exact ih

end Snek.Lex
