/-!
# Pictures and lines

A picture of 64 × 32 pixels, and what a straight line between two of them is.
-/
namespace Spec.Draw

/-- Distance of two integers. -/
def dist (a b : Int) : Nat := (a - b).natAbs

/-- The number of steps between two pixels. -/
def steps (a b : Int × Int) : Nat := max (dist b.1 a.1) (dist b.2 a.2)

/-- A straight line from `a` to `b`: as few pixels as possible, each a neighbour of the one before, each at most half a pixel from the
straight line through the centres of `a` and `b` (measured along the axis in which the line is steeper). -/
structure Straight (a b : Int × Int) (path : List (Int × Int)) : Prop where
  length : path.length = steps a b + 1
  first : path.head? = some a
  last : path.getLast? = some b
  next : ∀ (i : Nat) (p q : Int × Int), path[i]? = some p → path[i + 1]? = some q → dist p.1 q.1 ≤ 1 ∧ dist p.2 q.2 ≤ 1
  near : ∀ p ∈ path, 2 * ((b.1 - a.1) * (p.2 - a.2) - (b.2 - a.2) * (p.1 - a.1)).natAbs ≤ steps a b

/-- A number moved into 0 … `max`. -/
def clamp (v max : Int) : Int := if v < 0 then 0 else if v > max then max else v

/-- What a program can ask for. -/
inductive Op
  | erase
  | color (v : Int)
  | move (x y : Int)
  | line (x y : Int)

/-- A picture, the pen and where it is. -/
structure Sheet where
  dot : Int × Int → Bool
  pen : Bool
  at_ : Int × Int

/-- An empty sheet; the pen draws and is in the corner. -/
def Sheet.empty : Sheet := ⟨fun _ => false, true, (0, 0)⟩

/-- What each operation does to the sheet. -/
inductive Does : Sheet → Op → Sheet → Prop
  | erase (h) : Does h .erase { h with dot := fun _ => false }
  | color (h v) : Does h (.color v) { h with pen := decide (v ≠ 0) }
  | move (h x y) : Does h (.move x y) { h with at_ := (clamp x 63, clamp y 31) }
  | line (h x y path) : Straight h.at_ (clamp x 63, clamp y 31) path →
      Does h (.line x y) { h with at_ := (clamp x 63, clamp y 31), dot := fun p => if p ∈ path then h.pen else h.dot p }

/-- One operation after the other. -/
inductive Drawn : Sheet → List Op → Sheet → Prop
  | nil (h) : Drawn h [] h
  | cons {h k l op ops} : Does h op k → Drawn k ops l → Drawn h (op :: ops) l

/-- A line that is not both long and nearly, but not quite, level. -/
def Tame (a b : Int × Int) : Prop := 3 * dist b.1 a.1 ≤ 2 * dist b.2 a.2 + 127 ∨ b.2 = a.2

/-- All the lines are tame. `a` is where the pen is. -/
def AllTame : Int × Int → List Op → Prop
  | _, [] => True
  | _, .move x y :: ops => AllTame (clamp x 63, clamp y 31) ops
  | a, .line x y :: ops => Tame a (clamp x 63, clamp y 31) ∧ AllTame (clamp x 63, clamp y 31) ops
  | a, .erase :: ops => AllTame a ops
  | a, .color _ :: ops => AllTame a ops

/-- Pixel (X, Y) of a display whose memory has 8 pages of 8 rows: bit Y mod 8 of column X of page Y / 8. -/
def lit (ram : Nat → Nat → UInt8) (X Y : Nat) : Bool := (ram (Y / 8) X).toNat.testBit (Y % 8)

/-- The display shows a picture, each dot as a square of four pixels. -/
def Shows (ram : Nat → Nat → UInt8) (dot : Int × Int → Bool) : Prop :=
  ∀ X Y : Nat, X < 128 → Y < 64 → lit ram X Y = dot (((X / 2 : Nat) : Int), ((Y / 2 : Nat) : Int))

end Spec.Draw
