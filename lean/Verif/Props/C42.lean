import Verif.Proofs.Layout
/-!
# C42 Blocks are what the indentation says

`Spec.Layout.blocks` is the algorithm of the Python reference manual on the lines of a file. `tokens` are the tokens the parser gets
(Model/Layout), with their lines. `File C 1 ls text last`: the text consists of logical lines `ls` with their indentations, written as
Spec/Spelling says; between them there may be empty lines and lines that hold only a comment, however indented; within brackets a
logical line may extend over several lines.
-/
namespace Snek.Parse
open Snek.Lex Spec.Layout Spec.Spelling

/-- The tokens of a file of less than 256 columns of indentation, read non-interactively, are those of its lines, with the beginnings
and ends of blocks where the indentation algorithm has them; a file whose indentation is inconsistent is rejected. -/
theorem C42_blocks_partial (C : Cfg) (hi : C.interactive = false) (hC : 12 ≤ C.maxTok) (ls : List (Nat × Src)) (text : List Ch) (last : Nat)
    (f : File C 1 ls text last) (hz : 0 ∉ text) (h256 : ∀ l ∈ ls, l.1 < 256) :
    ∃ k0, ∀ k, k0 ≤ k → tokens C k (St.init text) [] = some ((blocks [0] ls).map (tokensOf last)) :=
  tokens_file hi hC f h256 hz (St.init text) [] rfl rfl rfl rfl rfl rfl (by simp)

/-- Number of blocks opened and closed. -/
def opened {α : Type} : List (Item α) → Nat
  | [] => 0
  | .opens _ :: is => opened is + 1
  | _ :: is => opened is
@[inherit_doc opened] def closed {α : Type} : List (Item α) → Nat
  | [] => 0
  | .closes _ :: is => closed is + 1
  | _ :: is => closed is

theorem opened_closes {α : Type} (m n : Nat) (is : List (Item α)) : opened (List.replicate m (.closes n) ++ is) = opened is := by
  induction m with
  | zero => rfl
  | succ m ih => rw [List.replicate_succ, List.cons_append, opened, ih]; intro _ h; cases h

theorem closed_closes {α : Type} (m n : Nat) (is : List (Item α)) : closed (List.replicate m (.closes n) ++ is) = m + closed is := by
  induction m with
  | zero => simp
  | succ m ih => rw [List.replicate_succ, List.cons_append, closed, ih]; omega

theorem close_length {st : List Nat} {n m : Nat} {st' : List Nat} (h : close st n = some (m, st')) : st'.length + m = st.length ∧ st' ≠ [] := by
  induction st generalizing m with
  | nil => cases h
  | cons t st ih =>
    rw [close] at h
    split at h
    · cases h; exact ⟨by simp, by simp⟩
    · split at h
      · cases hc : close st n with
        | none => rw [hc] at h; cases h
        | some p =>
          obtain ⟨m', st''⟩ := p
          rw [hc] at h
          cases h
          obtain ⟨h1, h2⟩ := ih hc
          exact ⟨by simp only [List.length_cons]; omega, h2⟩
      · cases h

theorem blocks_balanced {α : Type} (ls : List (Nat × α)) : ∀ (st : List Nat) (is : List (Item α)), st ≠ [] → blocks st ls = some is →
    closed is + 1 = opened is + st.length := by
  induction ls with
  | nil =>
    intro st is hst h
    cases h
    have e := closed_closes (α := α) (st.length - 1) 0 []
    have o := opened_closes (α := α) (st.length - 1) 0 []
    rw [List.append_nil] at e o
    rw [e, o]
    have := List.length_pos_iff.2 hst
    simp only [closed, opened]; omega
  | cons l ls ih =>
    obtain ⟨n, a⟩ := l
    intro st is hst h
    rw [blocks] at h
    split at h
    · cases hb : blocks (n :: st) ls with
      | none => rw [hb] at h; cases h
      | some js =>
        rw [hb] at h; cases h
        have := ih _ _ (by simp) hb
        simp only [closed, opened, List.length_cons] at this ⊢; omega
    · split at h
      · cases h
      · rename_i m st' hc
        obtain ⟨h1, h2⟩ := close_length hc
        cases hb : blocks st' ls with
        | none => rw [hb] at h; cases h
        | some js =>
          rw [hb] at h; cases h
          have := ih _ _ h2 hb
          rw [closed_closes, opened_closes]
          simp only [closed, opened]; omega

/-- Every block that is opened is closed by the end of the file. -/
theorem C42_closed {α : Type} (ls : List (Nat × α)) (is : List (Item α)) (h : blocks [0] ls = some is) : closed is = opened is := by
  have := blocks_balanced ls [0] is (by simp) h
  simp at this; omega

theorem close_map {f : Nat → Nat} (hf : ∀ a b, a < b → f a < f b) (st : List Nat) (n : Nat) :
    close (st.map f) (f n) = (close st n).map fun p => (p.1, p.2.map f) := by
  have hinj : ∀ a b, f a = f b ↔ a = b := by
    intro a b
    refine ⟨fun h => ?_, fun h => h ▸ rfl⟩
    rcases Nat.lt_trichotomy a b with h' | h' | h'
    · have := hf _ _ h'; omega
    · exact h'
    · have := hf _ _ h'; omega
  have hlt : ∀ a b, f a < f b ↔ a < b := by
    intro a b
    refine ⟨fun h => ?_, hf a b⟩
    rcases Nat.lt_trichotomy a b with h' | h' | h'
    · exact h'
    · subst h'; omega
    · have := hf _ _ h'; omega
  induction st with
  | nil => rfl
  | cons t st ih =>
    simp only [List.map_cons, close, hinj, hlt, ih]
    split
    · rfl
    · split
      · cases close st n <;> rfl
      · rfl

/-- The numbers of columns are mapped. -/
def Item.map {α : Type} (f : Nat → Nat) : Item α → Item α
  | .opens n => .opens (f n)
  | .closes n => .closes (f n)
  | .line a => .line a

/-- Only the order of the indentations matters: any change of the indentations that preserves the order (another width of indentation, say) leaves the
blocks unchanged. -/
theorem C42_relative {α : Type} (f : Nat → Nat) (hf : ∀ a b, a < b → f a < f b) (hz : f 0 = 0) (ls : List (Nat × α)) :
    blocks [0] (ls.map fun l => (f l.1, l.2)) = (blocks [0] ls).map fun is => is.map (Item.map f) := by
  have hlt : ∀ a b, f a < f b ↔ a < b := by
    intro a b
    refine ⟨fun h => ?_, hf a b⟩
    rcases Nat.lt_trichotomy a b with h' | h' | h'
    · exact h'
    · subst h'; omega
    · have := hf _ _ h'; omega
  have : ∀ (ls : List (Nat × α)) (st : List Nat), blocks (st.map f) (ls.map fun l => (f l.1, l.2)) = (blocks st ls).map fun is => is.map (Item.map f) := by
    intro ls
    induction ls with
    | nil => intro st; simp [blocks, Item.map, hz]
    | cons l ls ih =>
      obtain ⟨n, a⟩ := l
      intro st
      have hh : (st.map f).head?.getD 0 = f (st.head?.getD 0) := by cases st <;> simp [hz]
      have h1 := ih (n :: st)
      rw [List.map_cons] at h1
      rw [List.map_cons, blocks, blocks, hh, close_map hf]
      simp only [hlt, h1]
      split
      · simp [Option.map_map, Function.comp_def, Item.map]
      · cases close st n with
        | none => rfl
        | some p => simp only [Option.map_some]; rw [ih p.2]; simp [Option.map_map, Function.comp_def, Item.map]
  have h := this ls [0]
  rwa [List.map_cons, List.map_nil, hz] at h

/-- A line that is indented less than the one before it, but not to the level of any line that is still open, is rejected. -/
theorem C42_inconsistent {α : Type} (n m : Nat) (a b c : α) (ls : List (Nat × α)) (h0 : 0 < m) (hm : m < n) :
    blocks [0] ((0, a) :: (n, b) :: (m, c) :: ls) = none := by
  simp [blocks, close, h0, hm, Nat.lt_trans h0 hm, Nat.not_lt.2 (Nat.le_of_lt hm), Nat.ne_of_lt hm, Nat.ne_of_gt h0]

/-- 256 columns of indentation count as none: the condition on the indentations is needed. -/
theorem C42_violated_wrap : (tokens ⟨false, 255, true⟩ 300 (St.init ([120, 58, 10] ++ List.replicate 256 32 ++ [121, 10])) []).map
    (fun r => r.map fun l => l.map fun p => p.1) = some (some [.name [120], .colon, .nl, .name [121], .nl, .eof]) := by decide +kernel

/-- `if x:`, an indented line after a comment, and a line that is not indented. -/
example : (tokens ⟨false, 255, true⟩ 300 (St.init [105, 102, 32, 120, 58, 10, 32, 35, 99, 10, 32, 32, 121, 10, 10, 122, 10]) []).map
    (fun r => r.map fun l => l.map fun p => p) = some (some [(.kw .if_, 1), (.name [120], 1), (.colon, 1), (.nl, 2), (.indent 0, 3), (.name [121], 3),
      (.nl, 4), (.exdent 0, 5), (.name [122], 5), (.nl, 6), (.eof, 6)]) := by decide +kernel

end Snek.Parse
