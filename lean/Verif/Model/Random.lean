import Verif.Model.Number
/-!
# Random numbers

Models snek-random.c (the generator of most ports) and snek-random-small.c (AVR). Arguments are numbers: `snek_poly_get_float` reports
anything else as a type error. Conversion of a negative, too large or undefined number to `uint32_t`, and division by zero, are undefined
behaviour.
-/
namespace Snek.Random

/-- Conversion of a `float` to `uint32_t`: truncation; `none` is undefined behaviour (C11 6.3.1.4). -/
def fToU32 (a : BitVec 32) : Option Nat :=
  if isFin a ∧ 0 ≤ ftrunc a ∧ ftrunc a < 2 ^ 32 then some (ftrunc a).toNat else none

/-- Conversion of the exact quotient `n / 2^k` to `float`, rounded once: a `double` holds it exactly. -/
def scaled (n k : Nat) : BitVec 32 := if n = 0 then 0 else fmk false (roundMag (n * 2 ^ 149) (2 ^ k))

/-- `random_x`, `random_w`, snek-random.c:17. -/
structure St where
  x : BitVec 64
  w : BitVec 64
  deriving DecidableEq, Repr

/-- `snek_builtin_random_seed`, snek-random.c:21-28; `a` is the bit pattern of the argument. -/
def seed (a : BitVec 32) : St :=
  let x := a.setWidth 64
  ⟨x ||| x <<< 32, 0⟩

/-- `next_random`, snek-random.c:30-37; `random_s`, :19. -/
def next (s : St) : St :=
  let w := s.w + 0xb5ad4eceda1ce2a9#64
  let x := s.x * s.x + w
  ⟨x >>> 32 ||| x <<< 32, w⟩

/-- `snek_builtin_random_randrange`, snek-random.c:39-50. -/
def randrange (a : BitVec 32) (s : St) : NumR × St :=
  match fToU32 a with
  | none => (.undefined, s)
  | some 0 => (.error, s)
  | some m =>
    let s := next s
    (.ok (floatToPoly (intToF (s.x.toNat % m : Nat))), s)

/-- `snek_builtin_random_random`, snek-random.c:52-57: `/ 0x1p+32` is a division of doubles. -/
def random (s : St) : NumR × St :=
  let s := next s
  (.ok (floatToPoly (scaled (s.x.toNat % 2 ^ 32) 32)), s)

/-- A call. -/
inductive Call
  | seed (a : BitVec 32)
  | randrange (a : BitVec 32)
  | random
  deriving DecidableEq, Repr

/-- What a call returns (`seed` returns None: no number) and the new state. -/
def call : Call → St → Option NumR × St
  | .seed a, _ => (none, seed a)
  | .randrange a, s => let r := randrange a s; (some r.1, r.2)
  | .random, s => let r := random s; (some r.1, r.2)

namespace Small

/-- `snek_builtin_random_seed`, snek-random-small.c:19-24, with `random_next`, :17. -/
def seed (a : BitVec 32) : BitVec 32 := a

/-- `next_random`, snek-random-small.c:26-30. -/
def next (s : BitVec 32) : BitVec 32 := s * 1103515245#32 + 12345#32

/-- `snek_builtin_random_randrange`, snek-random-small.c:32-37. -/
def randrange (a : BitVec 32) (s : BitVec 32) : NumR × BitVec 32 :=
  match fToU32 a with
  | none => (.undefined, next s)
  | some 0 => (.undefined, next s)
  | some m => (.ok (floatToPoly (intToF ((next s).toNat % m : Nat))), next s)

/-- `random_next / 0x1p+31f`, snek-random-small.c:43: a division of floats, so the state is rounded first. -/
def ratio (s : BitVec 32) : BitVec 32 := fdiv (intToF s.toNat) (intToF (2 ^ 31))

/-- `snek_builtin_random_random`, snek-random-small.c:39-44. -/
def random (s : BitVec 32) : NumR × BitVec 32 := (.ok (floatToPoly (ratio (next s))), next s)

def call : Call → BitVec 32 → Option NumR × BitVec 32
  | .seed a, _ => (none, seed a)
  | .randrange a, s => let r := randrange a s; (some r.1, r.2)
  | .random, s => let r := random s; (some r.1, r.2)

end Small

end Snek.Random
