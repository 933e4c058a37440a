import Verif.Proofs.FsumEnd
/-!
# C78: `math.fsum` adds numbers as if without rounding

`f32val` is the value of a number in units of 2^-149, so that sums of numbers are sums of integers. `Nearest u n 1`: `u` is the finite
number closest to `n`, the even one of two (`Spec/Number`). The model is `Model/Fsum`.
-/
set_option exponentiation.threshold 400
namespace Snek.Fsum
open Spec

/-- A finite number. -/
def Fin (x : BitVec 32) : Prop := x.toNat % 2 ^ 31 < 0x7f800000

/-- The exact sum of numbers. -/
def Sum (xs : List (BitVec 32)) : Int := (xs.map f32val).sum

/-- The exact sum of their magnitudes. -/
def AbsSum (xs : List (BitVec 32)) : Nat := (xs.map fun x => (f32val x).natAbs).sum

theorem fin_iff {x : BitVec 32} : Fin x ↔ isFin x = true := by simp [Fin, isFin]

theorem sum_eq (xs : List (BitVec 32)) : Sum xs = (xs.map fval).sum := by
  unfold Sum
  rw [show xs.map f32val = xs.map fval from List.map_congr_left fun x _ => fval_eq_spec x]

theorem absSum_eq (xs : List (BitVec 32)) : AbsSum xs = mags xs := by
  unfold AbsSum mags
  rw [show (xs.map fun x => (f32val x).natAbs) = xs.map fun x => (fval x).natAbs from List.map_congr_left fun x _ => by rw [fval_eq_spec]]

theorem pick_all : ∀ xs, pick false xs = xs
  | [] => rfl
  | [_] => rfl
  | x :: y :: l => by rw [pick, if_neg (by decide), pick_all (y :: l)]

theorem start_good : Good (St.list ⟨List.replicate 4 0, 0⟩) 0 :=
  ⟨by intro p hp; simp [St.list] at hp, ⟨0, Nat.le_refl 0⟩, rfl⟩

/-- The result of a sum that does not overflow is the exact sum of all numbers, rounded once: whatever their number, order, signs
and magnitudes. (Missing in this form: when the result is finite; see `C78_small_partial`.) -/
theorem C78_exact_partial (xs : List (BitVec 32)) (hx : ∀ x ∈ xs, Fin x) (hf : Fin (fsum false xs)) :
    Nearest (fsum false xs) (Sum xs) 1 := by
  unfold fsum at hf ⊢
  rw [pick_all] at hf ⊢
  obtain ⟨h1, h2⟩ := fold_spec (xs := xs) (s := ⟨List.replicate 4 0, 0⟩) (N := 0) (Nat.zero_le _) (.inl start_good)
    (fun x h => fin_iff.1 (hx x h))
  rw [Int.zero_add, ← sum_eq] at h2
  generalize xs.foldl Fsum.insert ⟨List.replicate 4 0, 0⟩ = S at *
  rw [fin_iff, poly_fin'] at hf
  rw [poly_fin hf]
  rw [finish_list h1] at hf ⊢
  rcases h2 with h2 | h2
  · exact finish_spec h2 hf
  · rw [finish_bad h2] at hf; cases hf

/-- For up to 15000 numbers whose magnitudes add up to at most 2^126 (about 8.5e37) nothing overflows, so the result is the exact
sum, rounded once. (Missing: sums between 2^126 and the largest number, where a sum can overflow on the way, see `C78_violated_overflow`.) -/
theorem C78_small_partial (xs : List (BitVec 32)) (hx : ∀ x ∈ xs, Fin x) (hn : xs.length ≤ 15000) (hs : AbsSum xs ≤ 2 ^ 126 * 2 ^ 149) :
    Nearest (fsum false xs) (Sum xs) 1 := by
  have hx' : ∀ x ∈ xs, isFin x = true := fun x h => fin_iff.1 (hx x h)
  rw [absSum_eq] at hs
  have hA : 15001 * (277 * 2 ^ 253) + 2 ^ 126 * 2 ^ 149 ≤ 2 ^ 276 := by decide +kernel
  have hbase : mags (St.list ⟨List.replicate 4 0, 0⟩) = 0 := rfl
  obtain ⟨A, hA'⟩ : ∃ A, 277 * 2 ^ 253 = A := ⟨_, rfl⟩
  have hlen : xs.length * A ≤ 15000 * A := Nat.mul_le_mul_right A hn
  rw [hA'] at hA
  obtain ⟨h1, h2, h3⟩ := fold_lt hA' (xs := xs) (s := ⟨List.replicate 4 0, 0⟩) (N := 0) (Nat.zero_le _) start_good hx' (by
    rw [hbase]
    generalize 2 ^ 126 * 2 ^ 149 = C at *
    generalize 2 ^ 276 = D at *
    omega)
  rw [Int.zero_add, ← sum_eq] at h2
  unfold fsum
  rw [pick_all]
  generalize xs.foldl Fsum.insert ⟨List.replicate 4 0, 0⟩ = S at *
  have key : Nearest (finish S) (Sum xs) 1 := by
    rw [finish_list h1]
    refine finish_hi h2 ?_
    intro Q p hq
    refine top_lt h2.1 (by rw [hq]; simp) (h2.1 p (by rw [hq]; simp)) ?_
    have hm : mags S.list = mags Q + (fval p).natAbs := by rw [hq, mags_append]; simp [mags]
    have ht : S.list.take Q.length = Q := by rw [hq]; simp
    have hl := h2.length
    rw [hq, List.length_append] at hl
    have hQ : Q.length * 2 ^ 253 ≤ 277 * 2 ^ 253 := Nat.mul_le_mul_right _ (by omega)
    rw [ht]
    rw [hA'] at hQ
    clear hA'
    generalize Q.length * 2 ^ 253 = E at hQ ⊢
    generalize 2 ^ 126 * 2 ^ 149 = C at hs hA
    generalize 2 ^ 276 = D at hA ⊢
    omega
  rw [poly_fin (fin_iff.1 key.1)]
  exact key

/-! ## The order does not matter -/

theorem key_fin {k : Int} (h : k.natAbs < 0x7f800000) : ∃ w : BitVec 32, Fin w ∧ fkey w = k := by
  refine ⟨fmk (decide (k < 0)) k.natAbs, fin_iff.2 (isFin_fmk _ _ h), ?_⟩
  unfold fkey
  rw [fmk_toNat _ _ (by omega)]
  by_cases hk : k < 0
  · rw [decide_eq_true hk]
    simp only [if_true]
    rw [if_neg (by omega)]
    omega
  · rw [decide_eq_false hk]
    simp only [Bool.false_eq_true, if_false]
    rw [if_pos (by omega)]
    omega

/-- The nearest number is determined. -/
theorem nearest_unique {u v : BitVec 32} {n : Int} (hu : Nearest u n 1) (hv : Nearest v n 1) : f32val u = f32val v := by
  have wlog : ∀ {u v : BitVec 32}, Nearest u n 1 → Nearest v n 1 → ¬ f32val u < f32val v := by
    intro u v hu hv hlt
    have h1 := hu.2 v hv.1
    have h2 := hv.2 u hu.1
    have e : (f32val u * (1 : Nat) - n).natAbs = (f32val v * (1 : Nat) - n).natAbs := by omega
    have p1 := (h1.2 e).resolve_left (by omega)
    have p2 := (h2.2 e.symm).resolve_left (by omega)
    have hk := (fkey_val u v).2 hlt
    have f1 := hu.1
    have f2 := hv.1
    have par : ∀ w : BitVec 32, w.toNat % 2 = 0 → fkey w % 2 = 0 := by
      intro w hw
      unfold fkey
      split <;> omega
    have q1 := par u p1
    have q2 := par v p2
    obtain ⟨w, w1, w2⟩ := key_fin (k := fkey u + 1) (by
      have := u.isLt
      have := v.isLt
      unfold fkey at *
      split at hk <;> split at hk <;> omega)
    have a := (fkey_val u w).1 (by omega)
    have b := (fkey_val w v).1 (by omega)
    have h3 := (hu.2 w w1).1
    omega
  have := wlog hu hv
  have := wlog hv hu
  omega

theorem sum_perm {xs ys : List (BitVec 32)} (h : xs.Perm ys) : Sum xs = Sum ys := by
  unfold Sum
  induction h with
  | nil => rfl
  | cons x _ ih => simp only [List.map_cons, List.sum_cons, ih]
  | swap x y l => simp only [List.map_cons, List.sum_cons]; omega
  | trans _ _ h1 h2 => exact h1.trans h2

/-- Two orders of the same numbers have the same sum, unless one overflows. -/
theorem C78_order (xs ys : List (BitVec 32)) (h : xs.Perm ys) (hx : ∀ x ∈ xs, Fin x) (h1 : Fin (fsum false xs)) (h2 : Fin (fsum false ys)) :
    f32val (fsum false xs) = f32val (fsum false ys) := by
  have := C78_exact_partial ys (fun y hy => hx y (h.mem_iff.2 hy)) h2
  rw [← sum_perm h] at this
  exact nearest_unique (C78_exact_partial xs hx h1) this

/-- No sum with an infinity or a NaN looks like an ordinary number. -/
theorem C78_infinite (xs : List (BitVec 32)) (x : BitVec 32) (hm : x ∈ xs) (hx : ¬ Fin x) : ¬ Fin (fsum false xs) := by
  have hb : isFin x = false := by
    cases hh : isFin x with
    | false => rfl
    | true => exact absurd (fin_iff.2 hh) hx
  have bad : ∀ (ys : List (BitVec 32)) (s : St), s.n ≤ s.ps.length → (Bad s.list ∨ x ∈ ys) →
      (ys.foldl Fsum.insert s).n ≤ (ys.foldl Fsum.insert s).ps.length ∧ Bad (ys.foldl Fsum.insert s).list := by
    intro ys
    induction ys with
    | nil => exact fun s h b => ⟨h, b.resolve_right (by simp)⟩
    | cons y ys ih =>
      intro s h b
      refine ih _ (insert_eq h y).1 ?_
      rcases b with b | b
      · exact .inl (b.insert h y)
      · rcases List.mem_cons.1 b with rfl | b
        · obtain ⟨_, e⟩ := insert_eq h x
          have hf := lows_bad (ps := s.list) (x := x) (.inl hb)
          rw [feq_zero_bad hf] at e
          exact .inl ⟨_, _, e, by rw [poly_fin']; exact hf⟩
        · exact .inr b
  unfold fsum
  rw [pick_all]
  obtain ⟨a, b⟩ := bad xs ⟨List.replicate 4 0, 0⟩ (Nat.zero_le _) (.inr hm)
  rw [fin_iff, poly_fin', finish_list a, finish_bad b]
  decide

/-- The sum of a dictionary is the sum of its keys. -/
theorem C78_dict (kv : List (BitVec 32 × BitVec 32)) : fsum true (kv.flatMap fun p => [p.1, p.2]) = fsum false (kv.map (·.1)) := by
  have : pick true (kv.flatMap fun p => [p.1, p.2]) = kv.map (·.1) := by
    induction kv with
    | nil => rfl
    | cons p kv ih =>
      rw [List.flatMap_cons]
      show pick true (p.1 :: p.2 :: _) = _
      rw [pick, if_pos rfl]
      exact congrArg _ ih
  unfold fsum
  rw [this, pick_all]

/-! ## Examples -/

/-- 2^24, 1, 1: adding one at a time gives 2^24; `fsum` gives 2^24 + 2. -/
example : fsum false [0x4b800000, 0x3f800000, 0x3f800000] = 0x4b800001 ∧
    fadd (fadd 0x4b800000 0x3f800000) 0x3f800000 = 0x4b800000 := by decide +kernel

/-- 1e30, 1, -1e30 is 1. -/
example : fsum false [0x7149f2ca, 0x3f800000, 0xf149f2ca] = 0x3f800000 ∧
    fadd (fadd 0x7149f2ca 0x3f800000) 0xf149f2ca = 0 := by decide +kernel

/-- 2^24, 1 and the smallest number: a tie broken by a partial sum 149 binary places further down. -/
example : fsum false [0x4b800000, 0x3f800000, 1] = 0x4b800001 ∧ fsum false [0x4b800000, 0x3f800000] = 0x4b800000 ∧
    fsum false [0x4b800000, 0x3f800000, 0x80000001] = 0x4b800000 := by decide +kernel

example : (∀ x ∈ [0x4b800000#32, 0x3f800000, 1], Fin x) ∧ [0x4b800000#32, 0x3f800000, 1].length ≤ 15000 ∧
    AbsSum [0x4b800000, 0x3f800000, 1] ≤ 2 ^ 126 * 2 ^ 149 ∧ Sum [0x4b800000, 0x3f800000, 1] = (2 ^ 24 + 1) * 2 ^ 149 + 1 := by
  refine ⟨?_, by decide, by decide +kernel, by decide +kernel⟩
  intro x hx
  simp only [List.mem_cons, List.not_mem_nil, or_false] at hx
  rcases hx with rfl | rfl | rfl <;> exact fin_iff.2 (by decide)

/-- A sum that is a number can overflow on the way: 3e38 + 3e38 - 3e38 is not 3e38 but a NaN; in another order it is right. -/
theorem C78_violated_overflow : let a := 0x7f61b1e6#32; let b := 0xff61b1e6#32
    Fin a ∧ Fin b ∧ Sum [a, a, b] = f32val a ∧ ¬ Fin (fsum false [a, a, b]) ∧ fsum false [a, b, a] = a := by
  refine ⟨by unfold Fin; decide, by unfold Fin; decide, by decide +kernel, ?_, by decide +kernel⟩
  rw [fin_iff]
  decide +kernel

end Snek.Fsum
