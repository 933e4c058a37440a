import Verif.Proofs.Round
/-!
# Accumulated rounding errors

`Within k r N Q`: `r` differs from `N / Q` by at most `k` relative errors of 2^-24.
-/
namespace Snek

structure Within (k r N Q : Nat) : Prop where
  lo : 16777215 ^ k * N ≤ 16777216 ^ k * (r * Q)
  hi : 16777216 ^ k * (r * Q) ≤ 16777217 ^ k * N

theorem Within.exact (N Q r : Nat) (h : r * Q = N) : Within 0 r N Q := ⟨by rw [h]; exact Nat.le_refl _, by rw [h]; exact Nat.le_refl _⟩

theorem Within.succ {k r N Q : Nat} (h : Within k r N Q) : Within (k + 1) r N Q := by
  have h1 := h.lo
  have h2 := h.hi
  constructor
  · rw [Nat.pow_succ, Nat.pow_succ, Nat.mul_right_comm, Nat.mul_right_comm (16777216 ^ k)]
    exact Nat.mul_le_mul h1 (by decide)
  · rw [Nat.pow_succ, Nat.pow_succ, Nat.mul_right_comm, Nat.mul_right_comm (16777217 ^ k)]
    exact Nat.mul_le_mul h2 (by decide)

theorem Within.mono {k r N Q : Nat} (h : Within k r N Q) (j : Nat) (hj : k ≤ j) : Within j r N Q := by
  induction hj with
  | refl => exact h
  | step _ ih => exact ih.succ

/-- Rounding a normal number. -/
theorem round_rel (n d : Nat) (hd : 0 < d) (hlo : 2 ^ 23 * d ≤ n) (ho : roundMag n d < 0x7f800000) : Within 1 (fmag (roundMag n d)) n d := by
  have ho' : rexp n d * 2 ^ 23 + rne n (d * 2 ^ rexp n d) ≤ 0x7f800000 := by rw [roundMag_eq] at ho; omega
  have hf := fmag_roundMag n d hd ho'
  obtain ⟨h1, h2⟩ := rexp_spec n d hd
  have h1' : 2 ^ 23 * (d * 2 ^ rexp n d) ≤ n := by
    rcases h1 with h | h
    · rw [h]; simpa using hlo
    · exact h
  rw [hf]
  generalize rexp n d = e at *
  have hD : 0 < d * 2 ^ e := Nat.mul_pos hd (Nat.pow_pos (by decide))
  have e1 : rne n (d * 2 ^ e) * 2 ^ e * d = rne n (d * 2 ^ e) * (d * 2 ^ e) := by rw [Nat.mul_assoc, Nat.mul_comm (2 ^ e) d]
  have hq := Nat.div_add_mod n (d * 2 ^ e)
  have hl := Nat.mod_lt n hD
  have key : 2 * (rne n (d * 2 ^ e) * (d * 2 ^ e)) ≤ 2 * n + d * 2 ^ e ∧ 2 * n ≤ 2 * (rne n (d * 2 ^ e) * (d * 2 ^ e)) + d * 2 ^ e := by
    unfold rne
    generalize d * 2 ^ e = D at *
    split
    · rename_i hc
      rw [Nat.mul_comm (n / D) D]; omega
    · rename_i hc
      rw [Nat.add_mul, Nat.one_mul, Nat.mul_comm (n / D) D]; omega
  constructor <;> (rw [e1]; simp only [Nat.pow_one]; generalize rne n (d * 2 ^ e) * (d * 2 ^ e) = R at *; generalize d * 2 ^ e = D at *; omega)

/-- A product of two approximations, rounded. -/
theorem mul_within {k r p N Q A B U r' : Nat} (hU : 0 < U) (h : Within k r N Q) (hp : Within 1 p (A * U) B) (hr : Within 1 r' (r * p) U) :
    Within (k + 2) r' (N * A) (Q * B) := by
  have h1 := h.lo
  have h2 := h.hi
  have p1 := hp.lo
  have p2 := hp.hi
  have r1 := hr.lo
  have r2 := hr.hi
  simp only [Nat.pow_one] at p1 p2 r1 r2
  constructor
  · refine Nat.le_of_mul_le_mul_right (c := U) ?_ hU
    calc 16777215 ^ (k + 2) * (N * A) * U = 16777215 * ((16777215 ^ k * N) * (16777215 * (A * U))) := by rw [Nat.pow_succ, Nat.pow_succ]; ac_rfl
      _ ≤ 16777215 * ((16777216 ^ k * (r * Q)) * (16777216 * (p * B))) := Nat.mul_le_mul_left _ (Nat.mul_le_mul h1 p1)
      _ = 16777216 ^ k * (Q * B) * 16777216 * (16777215 * (r * p)) := by ac_rfl
      _ ≤ 16777216 ^ k * (Q * B) * 16777216 * (16777216 * (r' * U)) := Nat.mul_le_mul_left _ r1
      _ = 16777216 ^ (k + 2) * (r' * (Q * B)) * U := by rw [Nat.pow_succ, Nat.pow_succ]; ac_rfl
  · refine Nat.le_of_mul_le_mul_right (c := U) ?_ hU
    calc 16777216 ^ (k + 2) * (r' * (Q * B)) * U = 16777216 ^ k * (Q * B) * 16777216 * (16777216 * (r' * U)) := by rw [Nat.pow_succ, Nat.pow_succ]; ac_rfl
      _ ≤ 16777216 ^ k * (Q * B) * 16777216 * (16777217 * (r * p)) := Nat.mul_le_mul_left _ r2
      _ = 16777217 * ((16777216 ^ k * (r * Q)) * (16777216 * (p * B))) := by ac_rfl
      _ ≤ 16777217 * ((16777217 ^ k * N) * (16777217 * (A * U))) := Nat.mul_le_mul_left _ (Nat.mul_le_mul h2 p2)
      _ = 16777217 ^ (k + 2) * (N * A) * U := by rw [Nat.pow_succ, Nat.pow_succ]; ac_rfl

/-- The exact product of two approximations is not far off: within a factor of 2 and 5/4. -/
theorem prod_range {k r p N Q A B U : Nat} (hk : k ≤ 13) (h : Within k r N Q) (hp : Within 1 p (A * U) B) :
    N * A * U ≤ 2 * (r * p * (Q * B)) ∧ 4 * (r * p * (Q * B)) ≤ 5 * (N * A * U) := by
  have h := h.mono 13 hk
  have h1 := h.lo
  have h2 := h.hi
  have p1 := hp.lo
  have p2 := hp.hi
  simp only [Nat.pow_one] at p1 p2
  have a1 : 16777215 ^ 13 * N * (16777215 * (A * U)) ≤ 16777216 ^ 13 * (r * Q) * (16777216 * (p * B)) := Nat.mul_le_mul h1 p1
  have a2 : 16777216 ^ 13 * (r * Q) * (16777216 * (p * B)) ≤ 16777217 ^ 13 * N * (16777217 * (A * U)) := Nat.mul_le_mul h2 p2
  have e1 : ∀ a : Nat, a ^ 13 * N * (a * (A * U)) = a ^ 14 * (N * A * U) := fun a => by rw [Nat.pow_succ a 13]; ac_rfl
  have e2 : 16777216 ^ 13 * (r * Q) * (16777216 * (p * B)) = 16777216 ^ 14 * (r * p * (Q * B)) := by rw [Nat.pow_succ 16777216 13]; ac_rfl
  rw [e1, e2] at a1
  rw [e1, e2] at a2
  generalize N * A * U = X at *
  generalize r * p * (Q * B) = Y at *
  have c1 : 16777216 ^ 14 ≤ 2 * 16777215 ^ 14 := by decide +kernel
  have c2 : 4 * 16777217 ^ 14 ≤ 5 * 16777216 ^ 14 := by decide +kernel
  have c0 : 0 < 16777216 ^ 14 := by decide +kernel
  have c3 : 0 < 16777215 ^ 14 := by decide +kernel
  generalize 16777215 ^ 14 = a at *
  generalize 16777216 ^ 14 = b at *
  generalize 16777217 ^ 14 = c at *
  constructor
  · refine Nat.le_of_mul_le_mul_left (a := _) (c := b) ?_ c0
    calc b * X ≤ 2 * a * X := Nat.mul_le_mul_right _ c1
      _ = 2 * (a * X) := Nat.mul_assoc ..
      _ ≤ 2 * (b * Y) := Nat.mul_le_mul_left _ a1
      _ = b * (2 * Y) := by ac_rfl
  · refine Nat.le_of_mul_le_mul_left (a := _) (c := b) ?_ c0
    calc b * (4 * Y) = 4 * (b * Y) := by ac_rfl
      _ ≤ 4 * (c * X) := Nat.mul_le_mul_left _ a2
      _ = 4 * c * X := (Nat.mul_assoc ..).symm
      _ ≤ 5 * b * X := Nat.mul_le_mul_right _ c2
      _ = b * (5 * X) := by ac_rfl

/-- Fourteen errors are less than one part in a million. -/
theorem Within.million {r N Q : Nat} (h : Within 14 r N Q) : ((r * Q : Int) - N).natAbs * 1000000 ≤ N := by
  have h1 := h.lo
  have h2 := h.hi
  have c1 : 999999 * 16777216 ^ 14 ≤ 1000000 * 16777215 ^ 14 := by decide +kernel
  have c2 : 1000000 * 16777217 ^ 14 ≤ 1000001 * 16777216 ^ 14 := by decide +kernel
  have c0 : 0 < 16777216 ^ 14 := by decide +kernel
  have hc : ((r * Q : Nat) : Int) = r * Q := Int.natCast_mul ..
  rw [← hc]
  clear hc
  generalize r * Q = R at *
  generalize 16777215 ^ 14 = a at *
  generalize 16777216 ^ 14 = b at *
  generalize 16777217 ^ 14 = c at *
  have g1 : 999999 * N ≤ 1000000 * R := by
    refine Nat.le_of_mul_le_mul_left (a := _) (c := b) ?_ c0
    calc b * (999999 * N) = 999999 * b * N := by ac_rfl
      _ ≤ 1000000 * a * N := Nat.mul_le_mul_right _ c1
      _ = 1000000 * (a * N) := Nat.mul_assoc ..
      _ ≤ 1000000 * (b * R) := Nat.mul_le_mul_left _ h1
      _ = b * (1000000 * R) := by ac_rfl
  have g2 : 1000000 * R ≤ 1000001 * N := by
    refine Nat.le_of_mul_le_mul_left (a := _) (c := b) ?_ c0
    calc b * (1000000 * R) = 1000000 * (b * R) := by ac_rfl
      _ ≤ 1000000 * (c * N) := Nat.mul_le_mul_left _ h2
      _ = 1000000 * c * N := (Nat.mul_assoc ..).symm
      _ ≤ 1000001 * b * N := Nat.mul_le_mul_right _ c2
      _ = b * (1000001 * N) := by ac_rfl
  omega

end Snek
