import Verif.Props.C05
import Verif.Props.C53
/-!
# C52 String operators

Strings are their characters; the terminating zero byte is not part of them.
-/
namespace Snek.Store
open Spec

variable {E : Env}

/-- Outcome of an operator that makes a string: the allocator refuses the memory for it, which is an error, or a new string of these characters; objects that
existed are unchanged. -/
def MakesStr (s : S) (b : List UInt8) (x : Option (Val × S)) : Prop :=
  ∃ r s', x = some (r, s') ∧ s.objs <+: s'.objs ∧
    ((r = Val.none ∧ s'.abort = true ∧ s.mem s.clock (b.length + 1) = false) ∨ (r = .str s.objs.length ∧ s'.abort = s.abort ∧ s'.bytes s.objs.length = some b))

theorem newStr_makes (s : S) {b : List UInt8} (hf : b.length + 1 < 2 ^ E.A.offBits) : MakesStr s b (newStr E s b) := by
  simp only [MakesStr, newStr, off_lt hf, Nat.lt_irrefl, if_false]
  cases hm : (s.ask (b.length + 1)).1 with
  | false =>
    refine ⟨_, _, rfl, List.prefix_refl _, .inl ⟨rfl, ?_, hm⟩⟩
    simp only [S.ask] at hm ⊢; rw [hm]; simp
  | true =>
    refine ⟨_, _, rfl, List.prefix_append _ _, .inr ⟨rfl, ?_, ?_⟩⟩
    · simp only [S.ask, S.push] at hm ⊢; rw [hm]; simp
    · rw [bytes_iff]; simp [S.push, S.ask]

/-- `a + b` and `a += b` are concatenation. -/
theorem C52_concat (s : S) (i j : Nat) (a b : List UInt8) (hi : s.bytes i = some a) (hj : s.bytes j = some b)
    (hf : a.length + b.length + 1 < 2 ^ E.A.offBits) (inplace : Bool) : MakesStr s (a ++ b) (arith E .plus inplace (.str i) (.str j) s) := by
  have h := newStr_makes (E := E) s (b := a ++ b) (by rw [List.length_append]; omega)
  simpa only [arith, strCat, hi, hj, Option.bind_eq_bind, Option.bind_some] using h

/-- `a * n` and `n * a` are `n`-fold repetition. -/
theorem C52_times (s : S) (i : Nat) (a : List UInt8) (hi : s.bytes i = some a) (u : BitVec 32) (n : Nat) (hu : Denotes u n)
    (hn : (n : Int) < 2 ^ (E.A.offBits - 1)) (hf : n * a.length + 1 < 2 ^ E.A.offBits) (inplace : Bool) :
    MakesStr s (List.replicate n a).flatten (arith E .times inplace (.str i) (.num u) s) ∧
    MakesStr s (List.replicate n a).flatten (arith E .times inplace (.num u) (.str i) s) := by
  have hp : (0 : Int) ≤ 2 ^ (E.A.offBits - 1) := Int.le_of_lt (Int.pow_pos (by decide))
  have hl : (List.replicate n a).flatten.length = n * a.length := by simp
  have h := newStr_makes (E := E) s (b := (List.replicate n a).flatten) (by rw [hl]; exact hf)
  have : arithTimes E s (.str i) (.num u) = newStr E s (List.replicate n a).flatten := by
    simp only [arithTimes, soff_denotes hu (by omega) hn, if_neg (show ¬ (n : Int) < 0 by omega), strTimes, hi, Option.bind_eq_bind, Option.bind_some,
      Int.toNat_natCast]
  rw [← this] at h
  exact ⟨h, h⟩

/-- `a in b` is the substring relation. -/
theorem C52_in (s : S) (i j : Nat) (a b : List UInt8) (hi : s.bytes i = some a) (hj : s.bytes j = some b) :
    (isIn E true (.str i) (.str j) s = some (one, s) ∧ ∃ p q, b = p ++ a ++ q) ∨
    (isIn E true (.str i) (.str j) s = some (Val.zero, s) ∧ ¬ ∃ p q, b = p ++ a ++ q) := by
  obtain ⟨f, h1, h2, -⟩ := C53_string (E := E) s i j a b hi hj
  cases f
  · exact .inr ⟨h2, fun h => absurd (h1.2 h) (by decide)⟩
  · exact .inl ⟨h2, h1.1 rfl⟩

/-- `len` is the number of characters. -/
theorem C52_len (s : S) (i : Nat) (a : List UInt8) (hi : s.bytes i = some a) : len s (.str i) = some a.length := by
  simp [len, hi]

/-- Reading the characters at the positions below `len` gives the string (see `C05_string_get` for all indices). -/
theorem C52_index (hA : E.A.Valid) (s : S) (i : Nat) (a : List UInt8) (hi : s.bytes i = some a) (hb : a.length < 2 ^ (E.A.offBits - 1))
    (k : Nat) (hk : k < a.length) (u : BitVec 32) (hu : Denotes u k) : 
    ∃ r s', index E s (.str i) (.num u) = some (r, s') ∧ s.objs <+: s'.objs ∧
        ((r = Val.none ∧ s'.abort = true ∧ s.mem s.clock 2 = false) ∨ ∃ n, r = .str n ∧ s'.bytes n = some [a[k]] ∧ s'.abort = s.abort) := by
  have hp : ((2 ^ (E.A.offBits - 1) : Nat) : Int) = 2 ^ (E.A.offBits - 1) := by push_cast; rfl
  have h := C05_string_get (E := E) hA s i a hi (Nat.lt_of_lt_of_le hb (Nat.pow_le_pow_right (by decide) (by omega))) u k hu (by omega) (by omega)
  have he : elemAt a (k : Int) = some a[k] := by
    rw [elemAt, if_pos (by omega), Int.toNat_natCast, List.getElem?_eq_getElem hk]
  rw [he] at h
  exact h

/-! "ab" + "b", "ab" * 2, "b" in "ab", "ba" in "ab". -/

/-- A memory holding the strings "ab", "b" and "ba". -/
def demoStrs : S := ⟨[.str [97, 98], .str [98], .str [98, 97]], Option.none, fun _ _ => true, 3, false⟩

example : Denotes 0x40000000 2 ∧
    (arith (demoEnv .posix) .plus false (.str 0) (.str 1) demoStrs).map (fun p => (p.1, p.2.bytes 3)) = some (.str 3, some [97, 98, 98]) ∧
    (arith (demoEnv .posix) .times false two (.str 0) demoStrs).map (fun p => (p.1, p.2.bytes 3)) = some (.str 3, some [97, 98, 97, 98]) ∧
    isIn (demoEnv .posix) true (.str 1) (.str 0) demoStrs = some (one, demoStrs) ∧
    isIn (demoEnv .posix) true (.str 2) (.str 0) demoStrs = some (Val.zero, demoStrs) :=
  ⟨⟨by decide +kernel, by decide +kernel⟩, rfl, rfl, rfl, rfl⟩

end Snek.Store
