/-!
# What a line editor and a terminal do

Keys: 8 and 127 erase a character, 21 (^U) erases the line, 9 (tab) types a blank, 32 … 255 type themselves unless the line is full,
10 and 13 end the line, 3 (^C) interrupts, other control characters do nothing to the line.
-/
namespace Spec.Editor

/-- One key on a line with room for `room` characters. -/
def press (room : Nat) (line : List UInt8) (c : UInt8) : List UInt8 :=
  if c = 8 ∨ c = 127 then line.dropLast
  else if c = 21 then []
  else if c = 9 then (if line.length < room then line ++ [32] else line)
  else if 32 ≤ c then (if line.length < room then line ++ [c] else line)
  else line

/-- The line after some keys. -/
def edited (room : Nat) (keys : List UInt8) : List UInt8 := keys.foldl (press room) []

/-- Keys that neither end the line nor interrupt. -/
def Plain (keys : List UInt8) : Prop := ∀ c ∈ keys, c ≠ 10 ∧ c ≠ 13 ∧ c ≠ 3

/-- The line of a terminal the cursor is on, and the cursor's column. -/
structure Term where
  cells : List UInt8
  col : Nat

/-- A printed byte. -/
def Term.feed (t : Term) (c : UInt8) : Term :=
  if c = 8 then { t with col := t.col - 1 }
  else if c = 10 then ⟨[], 0⟩
  else if 32 ≤ c then ⟨t.cells.take t.col ++ c :: t.cells.drop (t.col + 1), t.col + 1⟩
  else t

/-- The terminal shows `l`, nothing but blanks after it, and the cursor behind it. -/
def Term.Shows (t : Term) (l : List UInt8) : Prop := ∃ n, t = ⟨l ++ List.replicate n 32, l.length⟩

end Spec.Editor
