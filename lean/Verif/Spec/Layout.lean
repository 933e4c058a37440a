import Verif.Spec.Spelling
/-!
# Block structure by indentation

The algorithm of the Python reference manual: a stack of indentations, at the bottom 0. A line that is indented more than the top
opens a block; one that is indented less closes blocks until the top equals its indentation, which must occur; at the end of the
input all blocks are closed.
-/
namespace Spec.Layout
open Snek.Lex Spec.Spelling

/-- A line of the program, the beginning of a block with the indentation of the lines around it, or the end of a block with the
indentation of the line after it (0 at the end of the input). -/
inductive Item (α : Type)
  | opens (outer : Nat)
  | closes (next : Nat)
  | line (a : α)

/-- Closing blocks: how many, and the stack afterwards. -/
def close : List Nat → Nat → Option (Nat × List Nat)
  | [], _ => none
  | t :: st, n =>
    if n = t then some (0, t :: st)
    else if n < t then (close st n).map fun (m, st) => (m + 1, st)
    else none

/-- The lines (indentation and contents) as items. -/
def blocks {α : Type} : List Nat → List (Nat × α) → Option (List (Item α))
  | st, [] => some (List.replicate (st.length - 1) (.closes 0))
  | st, (n, a) :: ls =>
    if st.head?.getD 0 < n then (blocks (n :: st) ls).map fun is => .opens (st.head?.getD 0) :: .line a :: is
    else match close st n with
      | none => none
      | some (m, st) => (blocks st ls).map fun is => List.replicate m (.closes n) ++ .line a :: is

/-- A logical line of a file: where it begins, and its tokens (the last one the newline) with their lines. -/
structure Src where
  line : Nat
  toks : List (Tok × Nat)

/-- Where the next logical line begins; the last line of the file if there is none. -/
def nextLine (last : Nat) : List (Item Src) → Nat
  | [] => last
  | .line a :: _ => a.line
  | _ :: is => nextLine last is

/-- The tokens of a file with their lines. The beginning or end of a block is on the line of the token after it. -/
def tokensOf (last : Nat) : List (Item Src) → List (Tok × Nat)
  | [] => [(.eof, last)]
  | .opens o :: is => (.indent o, nextLine last is) :: tokensOf last is
  | .closes n :: is => (.exdent n, nextLine last is) :: tokensOf last is
  | .line a :: is => a.toks ++ tokensOf last is

/-- Empty lines and lines that hold only a comment, however indented. -/
inductive Gap : List Ch → Prop
  | nil : Gap []
  | blank {g} (n) : Gap g → Gap (List.replicate n 32 ++ 10 :: g)
  | comment {g body} (n) : 10 ∉ body → Gap g → Gap (List.replicate n 32 ++ 35 :: (body ++ 10 :: g))

/-- A file, from line `n` on: logical lines with their indentation, and gaps between them. -/
inductive File (C : Cfg) : Nat → List (Nat × Src) → List Ch → (last : Nat) → Prop
  | nil {n g} : Gap g → File C n [] g (n + g.count 10)
  | cons {n g k c l ts n' ls text last} : Gap g → c ≠ 32 → c ≠ 10 → c ≠ 35 → Text C 0 (n + g.count 10) (c :: l) ts n' →
      File C n' ls text last →
      File C n ((k, ⟨n + g.count 10, ts⟩) :: ls) (g ++ (List.replicate k 32 ++ (c :: l ++ text))) last

end Spec.Layout
