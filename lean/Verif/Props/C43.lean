import Verif.Proofs.LexGap
import Verif.Props.C38
/-!
# C43: line numbers

`snek_line` is set to `snek_lex_line` after each token is read (snek-parse.c:153-161), and a statement records the value it has when
the statement's first token has been read (snek-gram.ll:86-90).
-/
namespace Snek.Lex

/-- At every moment the line number is one plus the number of newlines of the text that are no longer to come, whatever was pushed
back. -/
theorem C43_count (C : Cfg) (text : List Ch) (s : St) (hs : Reach C text s) :
    s.line = 1 + (newlines text - newlines s.pend) ∧ newlines s.pend ≤ newlines text := by
  have h := hs.adv.nl
  have hp := hs.adv.pos (Nat.le_refl _)
  change s.line + newlines s.pend = 1 + newlines text at h
  change 1 ≤ s.line at hp
  omega

/-- When a token has been read, the line number is one plus the number of newlines before the token's first character `c`: blanks,
then the token, then the rest make up the text that was to come, and the newlines from the token's first character on are those not
counted. Names must fit the token buffer; string literals must not contain newlines (see below). -/
theorem C43_token_partial (C : Cfg) (hC : 12 ≤ C.maxTok) (text : List Ch) (s s' : St) (hs : Reach C text s) (k : Nat) (t : Tok)
    (h : lex C k s = some (t, s')) (ht : t.proper = true) (hname : ∀ w, t = .name w → w.length + 1 < C.maxTok)
    (hstr : ∀ b, t = .string b → 10 ∉ s'.text) :
    ∃ gap c tok z, Blank gap ∧ c ≠ 32 ∧ c ≠ 10 ∧ c ≠ 35 ∧ c ≠ 0 ∧
      s.pend ++ List.replicate z 0 = gap ++ (c :: tok ++ s'.pend) ∧
      s'.line = 1 + (newlines text - newlines (c :: tok ++ s'.pend)) ∧
      s'.line = s.line + newlines gap := by
  obtain ⟨gap, c, tok, h1, ⟨⟨z, h2⟩, h3⟩, h4, h5, h6, h7⟩ := lex_gap C hC h ht hname hstr
  obtain ⟨n1, n2⟩ := C43_count C text s' (.call hs h)
  have hn : newlines (c :: tok) = 0 := List.count_eq_zero.2 h4
  refine ⟨gap, c, tok, z, h1, h5, fun h => h4 (by simp [h]), h6, h7, ?_, ?_, ?_⟩
  · have : s.pend ++ List.replicate z 0 = gap ++ c :: tok ++ s'.pend := h2
    rw [this]; simp
  · have : newlines (c :: tok ++ s'.pend) = newlines (c :: tok) + newlines s'.pend := List.count_append
    rw [this, hn]; omega
  · have : newlines (gap ++ c :: tok) = newlines gap + newlines (c :: tok) := List.count_append
    change s'.line = s.line + _ at h3
    rw [h3, this, hn]; omega

/-- Why literals with newlines are excluded: after `"\<newline>"` on the first line, the recorded line is 2. -/
theorem C43_violated_string : (lex ⟨false, 255, true⟩ 300 (St.init [34, 92, 10, 34, 10])).map (fun r => (r.1, r.2.line)) =
    some (.string [10], 2) := by decide +kernel

/-! Two lines and a comment before a name. -/

/-- `\n#c\n x` (inside brackets, say): the name is on line 3. -/
example : (lex ⟨false, 255, true⟩ 300 { St.init [10, 35, 99, 10, 32, 120, 10] with ign := 1 }).map (fun r => (r.1, r.2.line, r.2.pend)) =
    some (.name [120], 3, [10]) := by decide +kernel

end Snek.Lex
