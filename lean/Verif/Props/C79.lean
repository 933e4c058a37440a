import Verif.Model.Isclose
import Verif.Proofs.FsumFloat
/-!
# C79: `math.isclose`

`f32val` is the value of a number in units of 2^-149 (that of an infinity is 2^277 or -2^277); `Rounded u n d`: `u` is `n / d`
correctly rounded (`Spec/Number`). The model is `Model/Isclose`.
-/
set_option exponentiation.threshold 400
namespace Snek.Isclose
open Spec Snek.Fsum

theorem roundMag_lt (n d : Nat) : roundMag n d < 2 ^ 31 := by
  rw [roundMag_eq]
  exact Nat.lt_of_le_of_lt (Nat.min_le_right _ _) (by decide)

theorem fabs_fmk (neg : Bool) (m : Nat) (h : m < 2 ^ 31) : fabs (fmk neg m) = fmk false m := by
  unfold fabs
  rw [fmk_toNat _ _ h]
  congr 1
  cases neg <;> simp <;> omega

theorem fabs_fabs (a : BitVec 32) : fabs (fabs a) = fabs a := fabs_fmk _ _ (Nat.mod_lt _ (by decide))

theorem nan_fabs (a : BitVec 32) : isNanF (fabs a) = isNanF a := by
  unfold isNanF fabs
  rw [fmk_toNat _ _ (by omega)]
  simp

theorem nan_fneg1 (a : BitVec 32) : isNanF (fneg1 a) = isNanF a ∧ isInfF (fneg1 a) = isInfF a ∧ fneg (fneg1 a) = !fneg a := by
  unfold fneg1
  refine ⟨?_, ?_, fneg_fmk _ _ (by omega)⟩
  · unfold isNanF
    rw [fmk_toNat _ _ (by omega)]
    congr 2
    split <;> omega
  · unfold isInfF
    rw [fmk_toNat _ _ (by omega)]
    congr 2
    split <;> omega

theorem inf_fabs {a : BitVec 32} (h : isInfF a = true) : fabs a = fmk false 0x7f800000 := by
  unfold isInfF at h
  unfold fabs
  rw [of_decide_eq_true h]

/-- The distance does not depend on the order. -/
theorem dist_comm (a b : BitVec 32) : fabs (fsub a b) = fabs (fsub b a) := by
  obtain ⟨a1, a2, a3⟩ := nan_fneg1 a
  obtain ⟨b1, b2, b3⟩ := nan_fneg1 b
  unfold fsub fadd
  rw [a1, a2, a3, b1, b2, b3, Bool.or_comm (isNanF b)]
  cases isNanF a || isNanF b with
  | true => simp only [if_true]
  | false =>
    simp only [Bool.false_eq_true, if_false]
    cases ha : isInfF a <;> cases hb : isInfF b <;>
      simp only [Bool.true_and, Bool.false_and, Bool.false_eq_true, if_false, if_true]
    · rw [fval_fneg1, fval_fneg1]
      by_cases h : fval a + -fval b = 0
      · rw [if_pos h, if_pos (by omega), fabs_fmk _ _ (by decide), fabs_fmk _ _ (by decide)]
      · rw [if_neg h, if_neg (by omega)]
        unfold fround
        rw [fabs_fmk _ _ (roundMag_lt _ _), fabs_fmk _ _ (roundMag_lt _ _), show (fval b + -fval a).natAbs = (fval a + -fval b).natAbs by omega]
    · rw [inf_fabs (by rw [b2]; exact hb), inf_fabs hb]
    · rw [inf_fabs ha, inf_fabs (by rw [a2]; exact ha)]
    · cases fneg a <;> cases fneg b <;> simp [inf_fabs ha, inf_fabs hb]

theorem dist_nan {a b : BitVec 32} (h : isNanF a = true ∨ isNanF b = true) : isNanF (fabs (fsub a b)) = true := by
  rw [nan_fabs]
  unfold fsub fadd
  rw [(nan_fneg1 b).1]
  have : (isNanF a || isNanF b) = true := by rcases h with h | h <;> rw [h] <;> simp
  rw [if_pos this]
  decide

theorem fkey_fabs (a : BitVec 32) : fkey (fabs a) = ((a.toNat % 2 ^ 31 : Nat) : Int) := by
  unfold fkey fabs
  rw [fmk_toNat _ _ (by omega)]
  simp only [Bool.false_eq_true, if_false, Nat.add_zero]
  rw [if_pos (by omega)]

theorem max_comm {a b : BitVec 32} (ha : isNanF a = false) (hb : isNanF b = false) : fmaxf (fabs a) (fabs b) = fmaxf (fabs b) (fabs a) := by
  unfold fmaxf fltF
  rw [nan_fabs, nan_fabs, ha, hb, fkey_fabs, fkey_fabs]
  simp only [Bool.false_eq_true, if_false, Bool.not_false, Bool.true_and, decide_eq_true_eq]
  unfold fabs
  by_cases h : ((a.toNat % 2 ^ 31 : Nat) : Int) < ((b.toNat % 2 ^ 31 : Nat) : Int)
  · rw [if_pos h, if_neg (by omega)]
  · rw [if_neg h]
    by_cases h2 : ((b.toNat % 2 ^ 31 : Nat) : Int) < ((a.toNat % 2 ^ 31 : Nat) : Int)
    · rw [if_pos h2]
    · rw [if_neg h2, show a.toNat % 2 ^ 31 = b.toNat % 2 ^ 31 by omega]

theorem isclose_two (a b : BitVec 32) (named : List (Name × BitVec 32)) :
    isclose [a, b] named = some (close a b (tols named 0x358637bd 0).1 (tols named 0x358637bd 0).2) := rfl

/-- Symmetric, for all numbers (with infinities and NaNs) and tolerances. -/
theorem C79_symmetric (a b : BitVec 32) (named : List (Name × BitVec 32)) : isclose [a, b] named = isclose [b, a] named := by
  rw [isclose_two, isclose_two, Option.some.injEq]
  unfold close
  simp only
  rw [dist_comm]
  cases ha : isNanF a with
  | true =>
    unfold fle
    rw [dist_nan (.inr ha)]
    simp only [Bool.not_true, Bool.false_and]
  | false =>
    cases hb : isNanF b with
    | true =>
      unfold fle
      rw [dist_nan (.inl hb)]
      simp only [Bool.not_true, Bool.false_and]
    | false => rw [max_comm ha hb]

/-- A NaN is close to nothing. -/
theorem C79_nan (a b : BitVec 32) (named : List (Name × BitVec 32)) (h : isNanF a = true ∨ isNanF b = true) :
    isclose [a, b] named = some false := by
  rw [isclose_two, Option.some.injEq]
  unfold close
  simp only
  unfold fle
  rw [dist_nan h]
  rfl

/-- What the last of the named actuals says counts, else the defaults. -/
def Tols (named : List (Name × BitVec 32)) (rel abs : BitVec 32) : Prop :=
  rel = (((named.filter (·.1 = .rel_tol)).getLast?).map (·.2)).getD 0x358637bd ∧
  abs = (((named.filter (·.1 = .abs_tol)).getLast?).map (·.2)).getD 0

theorem tols_spec : ∀ (named : List (Name × BitVec 32)) (rel abs : BitVec 32),
    tols named rel abs = ((((named.filter (·.1 = .rel_tol)).getLast?).map (·.2)).getD rel,
      (((named.filter (·.1 = .abs_tol)).getLast?).map (·.2)).getD abs)
  | [], _, _ => rfl
  | (.rel_tol, v) :: l, rel, abs => by
    rw [tols, tols_spec l]
    simp only [List.filter_cons, decide_true, if_true, reduceCtorEq, decide_false, Bool.false_eq_true, if_false, List.getLast?_cons, Option.map_some,
      Option.getD_some]
    cases (l.filter (·.1 = .rel_tol)).getLast? <;> rfl
  | (.abs_tol, v) :: l, rel, abs => by
    rw [tols, tols_spec l]
    simp only [List.filter_cons, decide_true, if_true, reduceCtorEq, decide_false, Bool.false_eq_true, if_false, List.getLast?_cons, Option.map_some,
      Option.getD_some]
    cases (l.filter (·.1 = .abs_tol)).getLast? <;> rfl
  | (.other, v) :: l, rel, abs => by
    rw [tols, tols_spec l]
    simp only [List.filter_cons, reduceCtorEq, decide_false, Bool.false_eq_true, if_false]

/-- For finite numbers and tolerances: close means that the distance, rounded, is at most the relative tolerance times the larger
magnitude, rounded, or at most the absolute tolerance. -/
theorem C79_rule (a b rel abs : BitVec 32) (named : List (Name × BitVec 32)) (ht : Tols named rel abs) (ha : isFin a = true) (hb : isFin b = true)
    (hr : isFin rel = true) (hs : isFin abs = true) :
    ∃ d t, Rounded d (f32val a - f32val b).natAbs 1 ∧
      Rounded t (f32val rel * max (f32val a).natAbs (f32val b).natAbs) (2 ^ 149) ∧
      isclose [a, b] named = some (decide (f32val d ≤ f32val t ∨ f32val d ≤ f32val abs)) := by
  refine ⟨fabs (fsub a b), fmul rel (fmaxf (fabs a) (fabs b)), ?_, ?_, ?_⟩
  · rw [fval_eq_spec, fval_eq_spec]
    obtain ⟨n1, n2⟩ := fneg1_fin hb
    unfold fsub
    rw [fadd_fin ha n1, n2]
    by_cases h : fval a + -fval b = 0
    · rw [if_pos h, fabs_fmk _ _ (by decide), show fval a - fval b = 0 by omega]
      exact rounded_zero false 1 (by decide)
    · rw [if_neg h]
      unfold fround
      rw [fabs_fmk _ _ (roundMag_lt _ _)]
      have := rounded_fmk false (fval a - fval b).natAbs 1 (by decide) (.inr rfl)
      exact this
  · rw [fval_eq_spec, fval_eq_spec, fval_eq_spec]
    obtain ⟨a1, a2⟩ := fabs_fin ha
    obtain ⟨b1, b2⟩ := fabs_fin hb
    have hm : isFin (fmaxf (fabs a) (fabs b)) = true ∧
        fval (fmaxf (fabs a) (fabs b)) = (max (fval a).natAbs (fval b).natAbs : Nat) ∧ fneg (fmaxf (fabs a) (fabs b)) = false := by
      unfold fmaxf
      rw [(fin_parts a1).1, (fin_parts b1).1]
      simp only [Bool.false_eq_true, if_false]
      have hl := fltF_val a1 b1
      rw [a2, b2] at hl
      have sg : ∀ x : BitVec 32, fneg (fabs x) = false := fun x => fneg_fmk _ _ (by omega)
      by_cases h : fltF (fabs a) (fabs b) = true
      · rw [if_pos h]
        have := hl.1 h
        exact ⟨b1, by rw [b2]; omega, sg b⟩
      · rw [if_neg h]
        have : ¬ _ := fun h' => h (hl.2 h')
        exact ⟨a1, by rw [a2]; omega, sg a⟩
    obtain ⟨m1, m2, m3⟩ := hm
    generalize fmaxf (fabs a) (fabs b) = m at *
    generalize max (fval a).natAbs (fval b).natAbs = M at *
    unfold fmul
    rw [(fin_parts hr).1, (fin_parts m1).1, (fin_parts hr).2, (fin_parts m1).2, m3, m2]
    simp only [Bool.or_self, Bool.false_eq_true, if_false, Bool.bne_false, Int.natAbs_natCast]
    by_cases h0 : (fval rel).natAbs * M = 0
    · rw [h0, roundMag_zero]
      have : fval rel * (M : Int) = 0 := by
        rcases Nat.mul_eq_zero.1 h0 with h | h
        · rw [show fval rel = 0 by omega, Int.zero_mul]
        · rw [h]; simp
      rw [this]
      exact rounded_zero _ _ (by decide)
    · have := rounded_fmk (fneg rel) ((fval rel).natAbs * M) (2 ^ 149) (by decide) (.inl (by omega))
      have e : (if fneg rel = true then -(((fval rel).natAbs * M : Nat) : Int) else (((fval rel).natAbs * M : Nat) : Int)) = fval rel * (M : Int) := by
        rw [Int.natCast_mul]
        by_cases hn : fneg rel = true
        · rw [if_pos hn, ← Int.neg_mul, show -((fval rel).natAbs : Int) = fval rel by unfold fval; rw [if_pos hn]; omega]
        · rw [if_neg hn, show ((fval rel).natAbs : Int) = fval rel by unfold fval; rw [if_neg hn]; omega]
      rw [e] at this
      exact this
  · rw [isclose_two, tols_spec, ← ht.1, ← ht.2, Option.some.injEq]
    unfold close
    simp only
    have nd : isNanF (fabs (fsub a b)) = false := by
      rw [nan_fabs]
      obtain ⟨n1, n2⟩ := fneg1_fin hb
      unfold fsub
      rw [fadd_fin ha n1]
      split
      · unfold isNanF; rw [fmk_toNat _ _ (by decide)]; cases fneg a && fneg (fneg1 b) <;> decide
      · unfold fround isNanF
        rw [fmk_toNat _ _ (roundMag_lt _ _), roundMag_eq]
        have := Nat.min_le_right (rexp (fval a + fval (fneg1 b)).natAbs 1 * 2 ^ 23 + rne (fval a + fval (fneg1 b)).natAbs (1 * 2 ^ rexp (fval a + fval (fneg1 b)).natAbs 1)) 0x7f800000
        refine decide_eq_false ?_
        split <;> omega
    have nt : isNanF (fmul rel (fmaxf (fabs a) (fabs b))) = false := by
      have m1 : isFin (fmaxf (fabs a) (fabs b)) = true := by
        unfold fmaxf
        split
        · exact (fabs_fin hb).1
        · split
          · exact (fabs_fin ha).1
          · split
            · exact (fabs_fin hb).1
            · exact (fabs_fin ha).1
      generalize fmaxf (fabs a) (fabs b) = m at *
      unfold fmul
      rw [(fin_parts hr).1, (fin_parts m1).1, (fin_parts hr).2, (fin_parts m1).2]
      simp only [Bool.or_self, Bool.false_eq_true, if_false]
      generalize (fval rel).natAbs * (fval m).natAbs = K
      unfold isNanF
      rw [fmk_toNat _ _ (roundMag_lt _ _), roundMag_eq]
      have := Nat.min_le_right (rexp K (2 ^ 149) * 2 ^ 23 + rne K (2 ^ 149 * 2 ^ rexp K (2 ^ 149))) 0x7f800000
      refine decide_eq_false ?_
      split <;> omega
    generalize fabs (fsub a b) = d at *
    generalize fmul rel (fmaxf (fabs a) (fabs b)) = t at *
    have na := (fin_parts hs).1
    unfold fmaxf fle fltF
    rw [nt, na, nd]
    simp only [Bool.false_eq_true, if_false, Bool.not_false, Bool.true_and, decide_eq_true_eq]
    have k1 := fkey_val t d
    have k2 := fkey_val abs d
    have k3 := fkey_val t abs
    by_cases h : fkey t < fkey abs
    · rw [if_pos h, na]
      simp only [Bool.not_false, Bool.true_and, decide_eq_decide]
      omega
    · rw [if_neg h, nt]
      simp only [Bool.not_false, Bool.true_and, decide_eq_decide]
      omega

/-- A finite number is close to itself, whatever the relative tolerance, if the absolute one is not negative. -/
theorem C79_reflexive (a rel abs : BitVec 32) (named : List (Name × BitVec 32)) (ht : Tols named rel abs) (ha : isFin a = true)
    (hr : isFin rel = true) (hs : isFin abs = true) (h0 : 0 ≤ f32val abs) : isclose [a, a] named = some true := by
  obtain ⟨d, t, h1, _, h3⟩ := C79_rule a a rel abs named ht ha ha hr hs
  rw [h3, Option.some.injEq, decide_eq_true_eq]
  right
  have h4 := (h1.1 (by rw [Int.sub_self]; decide)).2 0 (by decide)
  rw [Int.sub_self, show f32val 0 = 0 by decide] at h4
  omega

/-- Infinities are not close to themselves. (Python: they are.) -/
theorem C79_violated_inf (named : List (Name × BitVec 32)) (u : BitVec 32) (h : isInfF u = true) : isclose [u, u] named = some false := by
  rw [isclose_two, Option.some.injEq]
  unfold close
  simp only
  have : fsub u u = NAN_U := by
    obtain ⟨n1, n2, n3⟩ := nan_fneg1 u
    have hn : isNanF u = false := by
      unfold isInfF at h
      unfold isNanF
      rw [of_decide_eq_true h]
      decide
    unfold fsub fadd
    rw [n1, n2, n3, h, hn]
    cases fneg u <;> rfl
  rw [this]
  unfold fle
  rw [show isNanF (fabs NAN_U) = true by decide]
  rfl

/-! ## Examples -/

/-- 1 and 1 + 2^-20 (0.00000095 apart) are close, 1 and 1 + 2^-19 are not, unless told so. -/
example : isclose [0x3f800000, 0x3f800008] [] = some true ∧ isclose [0x3f800000, 0x3f800010] [] = some false ∧
    isclose [0x3f800000, 0x3f800010] [(.rel_tol, 0x36000000)] = some true ∧
    isclose [0x3f800000, 0x3f800010] [(.rel_tol, 0), (.abs_tol, 0x36000000)] = some true ∧
    isclose [0x3f800000] [] = none := by decide +kernel

example : Tols [(.rel_tol, 0x36000000)] 0x36000000 0 ∧ isFin 0x3f800000 = true ∧ isFin 0x36000000 = true ∧ isFin 0 = true :=
  ⟨⟨rfl, rfl⟩, by decide, by decide, by decide⟩

end Snek.Isclose
