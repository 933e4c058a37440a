import Verif.Props.C42
import Verif.Props.C60
/-!
# C61: from the text of a file to its program

`program` lexes and parses a text (Model/Layout). `File C 1 ls text last` says how the text is written (Spec/Spelling, Spec/Layout),
`blocks` where its blocks are, `Forms` which program its tokens form (Spec/Program). `id`, `num` and `str` are what the lexer makes of
names, numbers and strings.
-/
namespace Snek.Parse
open Snek.Lex Snek.Lang Spec.Layout Spec.Spelling Spec.Program

theorem tokens_mono {C : Cfg} : ∀ {k : Nat} {s : St} {st : List Nat} {r : Option (List (Tok × Nat))}, tokens C k s st = some r → tokens C (k + 1) s st = some r := by
  intro k
  induction k with
  | zero => intro s st r h; cases h
  | succ k ih =>
    intro s st r h
    have key : ∀ {s : St} {st : List Nat} {p : Tok × Nat} {r : Option (List (Tok × Nat))}, (tokens C k s st).map (fun r => r.map (p :: ·)) = some r →
        (tokens C (k + 1) s st).map (fun r => r.map (p :: ·)) = some r := by
      intro s st p r h
      cases ht : tokens C k s st with
      | none => rw [ht] at h; cases h
      | some T => rw [ht] at h; rw [ih ht]; exact h
    rw [tokens] at h
    cases hl : lex C k s with
    | none => rw [hl] at h; cases h
    | some p =>
      obtain ⟨t, s'⟩ := p
      rw [hl] at h
      rw [tokens, lex_mono C hl (Nat.le_succ k)]
      cases t
      case exdent n =>
        cases st with
        | nil => exact h
        | cons i st =>
          simp only at h ⊢
          split
          · rename_i hn; rw [if_pos hn] at h; exact h
          · rename_i hn; rw [if_neg hn] at h; exact key h
      all_goals first | exact h | exact key h

theorem tokens_le {C : Cfg} {k m : Nat} {s : St} {st : List Nat} {r : Option (List (Tok × Nat))} (h : tokens C k s st = some r) (hm : k ≤ m) :
    tokens C m s st = some r := by
  obtain ⟨d, rfl⟩ := Nat.exists_eq_add_of_le hm
  clear hm
  induction d with
  | zero => exact h
  | succ d ih => exact tokens_mono ih

section
variable (C : Cfg) (hi : C.interactive = false) (hC : 12 ≤ C.maxTok) (id : List Ch → Nat) (num : List Ch → BitVec 32) (str : List Ch → Nat)
  (ls : List (Nat × Src)) (text : List Ch) (last : Nat) (f : File C 1 ls text last) (hz : 0 ∉ text) (h256 : ∀ l ∈ ls, l.1 < 256)
include hi hC f hz h256

/-- A text is accepted as a program exactly if its indentation is consistent and its tokens form that program. -/
theorem C61_program_partial (cs : List Cmd) :
    (∃ k0, ∀ k, k0 ≤ k → program C id num str k text = some cs) ↔
    ∃ is, blocks [0] ls = some is ∧ Forms (.prog cs) ((tokensOf last is).map fun p => (ofTok id num str p.1, p.2)) := by
  obtain ⟨k0, hk⟩ := C42_blocks_partial C hi hC ls text last f hz h256
  constructor
  · rintro ⟨k1, h⟩
    have h1 := h (k0 + k1) (by omega)
    rw [program, hk _ (by omega)] at h1
    cases hb : blocks [0] ls with
    | none => rw [hb] at h1; cases h1
    | some is =>
      rw [hb] at h1
      exact ⟨is, rfl, C60_only h1⟩
  · rintro ⟨is, hb, hf⟩
    obtain ⟨k1, h1⟩ := C60_reads hf
    refine ⟨k0 + k1, fun k hkk => ?_⟩
    rw [program, hk _ (by omega), hb]
    exact h1 k (by omega)

/-- Whatever is accepted is what the text says. -/
theorem C61_only (k : Nat) (cs : List Cmd) (h : program C id num str k text = some cs) :
    ∃ is, blocks [0] ls = some is ∧ Forms (.prog cs) ((tokensOf last is).map fun p => (ofTok id num str p.1, p.2)) := by
  obtain ⟨k0, hk⟩ := C42_blocks_partial C hi hC ls text last f hz h256
  cases ht : tokens C k (St.init text) [] with
  | none => rw [program, ht] at h; cases h
  | some r =>
    have e := (tokens_le ht (Nat.le_add_right k k0)).symm.trans (hk (k + k0) (by omega))
    cases e
    cases hb : blocks [0] ls with
    | none => rw [program, ht, hb] at h; cases h
    | some is =>
      rw [program, ht, hb] at h
      exact ⟨is, rfl, C60_only h⟩

end

/-- A text is at most one program. -/
theorem C61_unique (C : Cfg) (id : List Ch → Nat) (num : List Ch → BitVec 32) (str : List Ch → Nat) (text : List Ch) (k k' : Nat) (cs cs' : List Cmd)
    (h : program C id num str k text = some cs) (h' : program C id num str k' text = some cs') : cs = cs' := by
  have split : ∀ {k cs}, program C id num str k text = some cs → ∃ ts, tokens C k (St.init text) [] = some (some ts) ∧
      start k (ts.map fun p => (ofTok id num str p.1, p.2)) = some cs := by
    intro k cs h
    rw [program] at h
    split at h
    · rename_i ts ht; exact ⟨ts, ht, h⟩
    · cases h
  obtain ⟨ts, h1, h2⟩ := split h
  obtain ⟨ts', h1', h2'⟩ := split h'
  have e := (tokens_le h1 (Nat.le_add_right k k')).symm.trans (tokens_le h1' (Nat.le_add_left k' k))
  cases e
  exact C60_unique (C60_only h2) (C60_only h2')

/-- `if x:` / `  # no` / `  y = [1,` / `2]  # two` / (empty line) / `z` -/
def demo : List Ch := ascii "if x:\n  # no\n  y = [1,\n2]  # two\n\nz\n"

/-- The text is a `File`. -/
example : File ⟨false, 255, true⟩ 1
    [(0, ⟨1, [(.kw .if_, 1), (.name [120], 1), (.colon, 1), (.nl, 2)]⟩),
     (2, ⟨3, [(.name [121], 3), (.assign .plain, 3), (.os, 3), (.number [49], 3), (.comma, 3), (.number [50], 4), (.cs, 4), (.nl, 5)]⟩),
     (0, ⟨6, [(.name [122], 6), (.nl, 7)]⟩)] demo 7 := by
  have hdemo : demo = [] ++ (List.replicate 0 32 ++ (105 :: [102, 32, 120, 58, 10] ++ ((List.replicate 2 32 ++ 35 :: ([32, 110, 111] ++ 10 :: [])) ++
      (List.replicate 2 32 ++ (121 :: [32, 61, 32, 91, 49, 44, 10, 50, 93, 32, 32, 35, 32, 116, 119, 111, 10] ++
      ((List.replicate 0 32 ++ 10 :: []) ++ (List.replicate 0 32 ++ (122 :: [10] ++ [])))))))) := by decide +kernel
  rw [hdemo]
  have hdig : ∀ c : Ch, 48 ≤ c → c ≤ 57 → Numeral [c] [] [] := fun c h1 h2 => ⟨⟨c, [], rfl, ⟨h1, h2⟩, by simp⟩, .inl rfl, .inl rfl⟩
  have kwl : ∀ p ∈ keywords, 2 ≤ p.1.length := by decide +kernel
  have nm : ∀ {c d : Ch} {rest}, (97 ≤ c ∧ c ≤ 122) → EndsWord d → Spells ⟨false, 255, true⟩ [c] (.name [c]) (d :: rest) := fun {c d rest} hc hd =>
    .name ⟨c, [], rfl, .inr (.inr (.inr hc)), by simp⟩
      (fun p hp e => absurd (e ▸ kwl p hp) (by simp)) (by intro h; cases h) (by intro h; cases h) (by simp) hd
  have fx : ∀ {w : List Ch} {t : Tok} {c : Ch} {rest}, (w, t) ∈ Spec.Spelling.fixed true → ((Spec.Spelling.fixed true).all fun p => !(w ++ [c]).isPrefixOf p.1) = true →
      Spells ⟨false, 255, true⟩ w t (c :: rest) := fun {w t c rest} h1 h2 => .fixed h1 fun p hp h => by
    have := List.all_eq_true.1 h2 p hp
    rw [List.isPrefixOf_iff_prefix.2 h] at this
    cases this
  refine File.cons (n' := 2) (c := 105) .nil (by decide) (by decide) (by decide) ?_ ?_
  rotate_left
  refine File.cons (n' := 5) (c := 121) (g := List.replicate 2 32 ++ 35 :: ([32, 110, 111] ++ 10 :: [])) (.comment 2 (by decide) .nil)
    (by decide) (by decide) (by decide) ?_ ?_
  rotate_left
  refine File.cons (n' := 7) (c := 122) (g := List.replicate 0 32 ++ 10 :: []) (.blank 0 .nil) (by decide) (by decide) (by decide) ?_ (.nil .nil)
  rotate_left
  · refine .token (w := [105, 102]) (by decide) (.keyword (by decide +kernel) (by unfold EndsWord; decide)) (.space ?_)
    refine .token (w := [120]) (by decide) (nm (by decide) (by unfold EndsWord; decide)) ?_
    exact .token (w := [58]) (by decide) (fx (by decide +kernel) (by decide +kernel)) (.newline 1)
  · refine .token (w := [121]) (by decide) (nm (by decide) (by unfold EndsWord; decide)) (.space ?_)
    refine .token (w := [61]) (by decide) (fx (by decide +kernel) (by decide +kernel)) (.space ?_)
    refine .token (w := [91]) (by decide) (fx (by decide +kernel) (by decide +kernel)) ?_
    refine .token (w := [49]) (by decide) (.number (hdig 49 (by decide) (by decide)) (by simp [Continues, Digit]) (by decide)) ?_
    refine .token (w := [44]) (by decide) (fx (by decide +kernel) (by decide +kernel)) (.joined ?_)
    refine .token (w := [50]) (by decide) (.number (hdig 50 (by decide) (by decide)) (by simp [Continues, Digit]) (by decide)) ?_
    exact .token (w := [93]) (by decide) (fx (by decide +kernel) (by decide +kernel)) (.space (.space (.comment (body := [32, 116, 119, 111]) 4 (by decide))))
  · exact .token (w := [122]) (by decide) (nm (by decide) (by unfold EndsWord; decide)) (.newline 6)

/-- And its program, with the lines of its statements. -/
example : program ⟨false, 255, true⟩ (fun l => (l.headD 0).toNat) (fun l => (l.headD 0).toBitVec.setWidth 32) (fun _ => 0) 300 demo =
    some [.stat (.seq (.line 1) (.ifs (.name 120) (.seq (.line 3) (.assign .plain 121 (.build .list (.cons (.num 49) (.cons (.num 50) .nil))))) .none)),
      .stat (.seq (.line 6) (.expr (.name 122)))] := by
  have h : tokens ⟨false, 255, true⟩ 300 (St.init demo) [] = some (some [(.kw .if_, 1), (.name [120], 1), (.colon, 1), (.nl, 2), (.indent 0, 3),
     (.name [121], 3), (.assign .plain, 3), (.os, 3), (.number [49], 3), (.comma, 3), (.number [50], 4), (.cs, 4), (.nl, 5), (.exdent 0, 6),
     (.name [122], 6), (.nl, 7), (.eof, 7)]) := by decide +kernel
  rw [program, h]
  show start 300 _ = _
  with_unfolding_all rfl

end Snek.Parse
