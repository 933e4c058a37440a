import Verif.Model.Math
/-!
# `math.fsum`

`snek_builtin_math_fsum`, snek-math.c:67-158: a sum kept as a list of partial sums. `float` arithmetic is `Model/F32` (the variables are
`volatile`, so that the compiler does not merge operations). Elements that are not numbers are NaNs as `float`s. Memory does not run
out; that no object moves under the hands of the code is not considered here (the two allocations are bracketed by stashing `l`).
-/
namespace Snek.Fsum

/-- `getf`, snek-math.c:57-60. (`snek_poly_to_float` does not change anything, snek.h:911-915.) -/
def getf (ps : List (BitVec 32)) (o : Nat) : BitVec 32 := ps[o]?.getD 0

/-- `putf`, snek-math.c:62-65. -/
def putf (ps : List (BitVec 32)) (o : Nat) (v : BitVec 32) : List (BitVec 32) := ps.set o (floatToPoly v)

/-- The loop over the partial sums, snek-math.c:103-117, `k` rounds to go: the partial sums, `i` and `x` after it. -/
def inner : Nat → (j i : Nat) → (x : BitVec 32) → List (BitVec 32) → List (BitVec 32) × Nat × BitVec 32
  | 0, _, i, x, ps => (ps, i, x)
  | k + 1, j, i, x, ps =>
    let y := getf ps j
    let (x, y) := if fltF (fabs x) (fabs y) then (y, x) else (x, y)
    let hi := fadd x y
    let yr := fsub hi x
    let lo := fsub y yr
    if feq lo 0 then inner k (j + 1) i hi ps else inner k (j + 1) (i + 1) hi (putf ps i lo)

/-- The partial sums (an array of `m` entries) and how many of them there are. -/
structure St where
  ps : List (BitVec 32)
  n : Nat
  deriving DecidableEq, Repr

/-- One number, snek-math.c:101-129. -/
def insert (s : St) (x : BitVec 32) : St :=
  let (ps, n, x) := inner s.n 0 0 x s.ps
  if feq x 0 then ⟨ps, n⟩
  else
    let ps := if n ≥ ps.length then ps ++ List.replicate (n + 1 - ps.length) 0 else ps    -- snek_list_resize
    ⟨putf ps n x, n + 1⟩

/-- The numbers taken from the data of a list, snek-math.c:80-86, 100: every one, or of a dictionary every other one. (The `o++` for
dictionaries is undone by the loop's `o = 0`.) -/
def pick (dict : Bool) : List (BitVec 32) → List (BitVec 32)
  | [] => []
  | [x] => [x]
  | x :: y :: l => if dict then x :: pick dict l else x :: pick dict (y :: l)

/-- The loop that adds the partial sums from the last on, snek-math.c:136-144: `n`, `hi`, `lo`. -/
def top (ps : List (BitVec 32)) : Nat → (hi lo : BitVec 32) → Nat × BitVec 32 × BitVec 32
  | 0, hi, lo => (0, hi, lo)
  | n + 1, hi, _ =>
    let x := hi
    let y := getf ps n
    let hi := fadd x y
    let yr := fsub hi x
    let lo := fsub y yr
    if feq lo 0 then top ps n hi lo else (n, hi, lo)

/-- snek-math.c:133-155. -/
def finish (s : St) : BitVec 32 :=
  match s.n with
  | 0 => 0
  | n + 1 =>
    let (n, hi, lo) := top s.ps n (getf s.ps n) 0
    if 0 < n ∧ ((fltF lo 0 ∧ fltF (getf s.ps (n - 1)) 0) ∨ (fltF 0 lo ∧ fltF 0 (getf s.ps (n - 1)))) then
      let y := fmul lo (intToF 2)
      let x := fadd hi y
      let yr := fsub x hi
      if feq y yr then x else hi
    else hi

/-- `snek_builtin_math_fsum`, snek-math.c:73-158, on the data of a list, tuple or dictionary. -/
def fsum (dict : Bool) (data : List (BitVec 32)) : Poly :=
  floatToPoly (finish ((pick dict data).foldl insert ⟨List.replicate 4 0, 0⟩))

end Snek.Fsum
