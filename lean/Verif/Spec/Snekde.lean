/-!
# What an editor does

A sheet is the text before the cursor, the text behind it, the place of the other end of the selection, and what was cut. Nothing here is
taken from the program.
-/
namespace Snek.Snekde.Spec

structure Sheet where
  before : List Char
  after : List Char
  mark : Option Nat
  cut : List Char
  deriving DecidableEq, Repr

/-- The text. -/
def Sheet.all (s : Sheet) : List Char := s.before ++ s.after

/-- The part of the line of the cursor that is before it. -/
def Sheet.head (s : Sheet) : List Char := (s.before.reverse.takeWhile (· ≠ '\n')).reverse
/-- The part of the line of the cursor that is behind it. -/
def Sheet.tail (s : Sheet) : List Char := s.after.takeWhile (· ≠ '\n')

/-- The cursor at a place of the text. -/
def Sheet.go (s : Sheet) (p : Nat) : Sheet := { s with before := s.all.take p, after := s.all.drop p }

/-- Putting a text before the cursor: a mark behind the cursor moves with its text. -/
def Sheet.put (s : Sheet) (t : List Char) : Sheet :=
  { s with before := s.before ++ t, mark := s.mark.map fun m => if s.before.length < m then m + t.length else m }

/-- Where a mark is when the `n` characters at `p` are taken out: nowhere if it was at one of them. -/
def gone (p n m : Nat) : Option Nat := if m < p then some m else if m < p + n then none else some (m - n)

/-- Taking out the `n` characters behind the cursor. (At the end of the text there may be none; a mark that is there is dropped all the same.) -/
def Sheet.rub (s : Sheet) (n : Nat) : Sheet :=
  { s with after := s.after.drop n, mark := s.mark.bind (gone s.before.length n) }

/-- The keys that have nothing to do with indentation or undoing. -/
inductive Key where
  | mark | copy | cut | paste | kill | left | right | home | end_ | erase
  | char (c : Char)
  deriving DecidableEq, Repr

/-- What each of them does. Erasing within the spaces that a line begins with goes back to the last multiple of four. -/
def act (s : Sheet) : Key → Sheet
  | .mark => { s with mark := if s.mark = none then some s.before.length else none }
  | .copy => match s.mark with
    | none => s
    | some m => { s with mark := none, cut := if m ≤ s.before.length then s.before.drop m else s.after.take (m - s.before.length) }
  | .cut => match s.mark with
    | none => s
    | some m =>
      if m ≤ s.before.length then { s with mark := none, cut := s.before.drop m, before := s.before.take m }
      else { s with mark := none, cut := s.after.take (m - s.before.length), after := s.after.drop (m - s.before.length) }
  | .paste => if s.cut = [] then s else s.put s.cut
  | .kill => s.rub (if s.tail = [] then 1 else s.tail.length)
  | .left => s.go (s.before.length - 1)
  | .right => s.go (s.before.length + 1)
  | .home => s.go (s.before.length - s.head.length)
  | .end_ => s.go (s.before.length + s.tail.length)
  | .erase => match s.mark with
    | some m =>
      if m ≤ s.before.length then { s with mark := none, before := s.before.take m }
      else { s with mark := none, after := s.after.drop (m - s.before.length) }
    | none =>
      let n := if s.head ≠ [] ∧ s.head.all (· = ' ') then (if s.head.length % 4 = 0 then 4 else s.head.length % 4) else 1
      { s with before := s.before.take (s.before.length - n) }
  | .char c => s.put [c]

/-- The keys of the keyboard, by the numbers that curses gives them. -/
def codes : Key → List Nat
  | .mark => [0, 160]
  | .copy => [227]
  | .cut => [24, 248]
  | .paste => [22, 246]
  | .kill => [11]
  | .left => [260, 2]
  | .right => [261, 6]
  | .home => [262, 1]
  | .end_ => [360, 5]
  | .erase => [8, 263, 127]
  | .char c => if 32 ≤ c.toNat ∧ c.toNat ≤ 126 then [c.toNat] else []

/-- Doing something `n` times. -/
def again {α : Type} (f : α → α) : Nat → α → α
  | 0, x => x
  | n + 1, x => again f n (f x)

/-- `p` is column `col` of the line `l` of the text, before which there is `pre` and behind which there is `post`. -/
structure At (t : List Char) (p : Nat) (pre l post : List Char) (col : Nat) : Prop where
  text : t = pre ++ l ++ post
  first : pre = [] ∨ pre.getLast? = some '\n'
  one : '\n' ∉ l
  last : post = [] ∨ post.head? = some '\n'
  width : col ≤ l.length
  place : p = pre.length + col

/-- How many spaces a line begins with. -/
def lead (l : List Char) : Nat := (l.takeWhile (· = ' ')).length

/-- The indentation for a line that follows the line `l`: that of `l`, and four more if the last thing of `l` is a colon. -/
def wanted (l : List Char) : Nat :=
  lead l + (if (l.reverse.dropWhile (· = ' ')).head? = some ':' then 4 else 0)

/-- `t'` is the text `t` with the line that begins behind `pre` indented by `n` spaces: nothing but the spaces that the line begins with is
different. -/
def Indented (t : List Char) (pre : List Char) (n : Nat) (t' : List Char) : Prop :=
  ∃ k rest, t = pre ++ List.replicate k ' ' ++ rest ∧ rest.head? ≠ some ' ' ∧ t' = pre ++ List.replicate n ' ' ++ rest

end Snek.Snekde.Spec
