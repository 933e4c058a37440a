import Verif.Model.Strfromg
import Verif.Proofs.G9
/-! The text of the AVR boards. -/
namespace Snek.Strfromg
open Snek.Format Spec.Print

/-- `k` digits from 10^n on, downwards. -/
def row (f : Int → UInt8) : Nat → Int → List UInt8
  | 0, _ => []
  | k + 1, n => f n :: row f k (n - 1)

theorem fix_neg (ds : List UInt8) (exp : Int) (nd p : Nat) (hne : -(p : Int) - 1 ≠ exp) : ∀ (k : Nat) (n : Int), n + p = k → n < 0 →
    fixLoop ds exp nd p n = (if n = -1 then [46] else []) ++ row (digAt ds exp nd) (k + 1) n := by
  intro k
  induction k with
  | zero =>
    intro n h hn
    rw [fixLoop]
    simp only []
    rw [if_pos (show n - 1 < -(p : Int) by omega), if_neg (show ¬ (n - 1 = exp ∧ (at_ ds 0 > 53 ∨ at_ ds 0 = 53)) from fun h' => hne (by omega))]
    rfl
  | succ k ih =>
    intro n h hn
    rw [fixLoop]
    simp only []
    rw [if_neg (by omega), ih (n - 1) (by omega) (by omega), if_neg (show ¬ (n - 1 = -1) by omega)]
    simp [row]

theorem fix_pos (ds : List UInt8) (exp : Int) (nd p : Nat) (hne : -(p : Int) - 1 ≠ exp) : ∀ n : Nat,
    fixLoop ds exp nd p n = row (digAt ds exp nd) (n + 1) n ++ (if p = 0 then [] else [46] ++ row (digAt ds exp nd) p (-1)) := by
  intro n
  induction n with
  | zero =>
    rw [fixLoop]
    simp only []
    by_cases hp : p = 0
    · subst hp
      rw [if_pos (show ((0 : Nat) : Int) - 1 < -((0 : Nat) : Int) by decide), if_neg (show ¬ (((0 : Nat) : Int) - 1 = exp ∧ (at_ ds 0 > 53 ∨ at_ ds 0 = 53)) from fun h' => hne (by omega))]
      simp [row]
    · obtain ⟨k, rfl⟩ : ∃ k, p = k + 1 := ⟨p - 1, by omega⟩
      rw [if_neg (by omega), show ((0 : Nat) : Int) - 1 = -1 from rfl, fix_neg ds exp nd (k + 1) hne k (-1) (by omega) (by omega)]
      simp [row]
  | succ n ih =>
    rw [fixLoop]
    simp only []
    rw [if_neg (by omega), show ((n + 1 : Nat) : Int) - 1 = n by omega, ih, if_neg (by omega)]
    conv => rhs; rw [row, show ((n + 1 : Nat) : Int) - 1 = n by omega]
    simp

/-- The digits from `d` on. -/
theorem row_take (f : Int → UInt8) (ds : List UInt8) (exp : Int) : ∀ (k j : Nat) (n : Int), n = exp - j → j + k ≤ ds.length →
    (∀ i, j ≤ i → i < j + k → f (exp - i) = at_ ds i) → row f k n = (ds.drop j).take k := by
  intro k
  induction k with
  | zero => intro j n _ _ _; simp [row]
  | succ k ih =>
    intro j n hn hl hf
    have hj : j < ds.length := by omega
    rw [row, ih (j + 1) (n - 1) (by omega) (by omega) (fun i h1 h2 => hf i (by omega) (by omega)), hn, hf j (by omega) (by omega)]
    rw [List.drop_eq_getElem_cons hj, List.take_succ_cons]
    unfold at_
    rw [List.getD_eq_getElem?_getD, List.getElem?_eq_getElem hj]
    rfl

theorem row_zero (f : Int → UInt8) : ∀ (k : Nat) (n : Int), (∀ i : Nat, i < k → f (n - i) = 48) → row f k n = List.replicate k 48 := by
  intro k
  induction k with
  | zero => intro n _; rfl
  | succ k ih =>
    intro n h
    rw [row, List.replicate_succ, ih (n - 1) (fun i hi => by have := h (i + 1) (by omega); rw [← this]; congr 1; omega)]
    have := h 0 (by omega)
    simp at this
    rw [this]

theorem row_append (f : Int → UInt8) : ∀ (k l : Nat) (n : Int), row f (k + l) n = row f k n ++ row f l (n - k) := by
  intro k
  induction k with
  | zero => intro l n; simp [row]
  | succ k ih =>
    intro l n
    rw [show k + 1 + l = (k + l) + 1 by omega, row, row, ih, List.cons_append]
    congr 3
    omega

theorem lastDig_spec (ds : List UInt8) : ∀ p, lastDig ds p ≤ p ∧ (∀ i, lastDig ds p < i → i ≤ p → at_ ds i = 48) ∧
    (lastDig ds p ≠ 0 → at_ ds (lastDig ds p) ≠ 48) := by
  intro p
  induction p with
  | zero => exact ⟨Nat.le_refl _, fun i h1 h2 => by simp [lastDig] at h1; omega, fun h => absurd rfl h⟩
  | succ p ih =>
    unfold lastDig
    split
    · rename_i h
      refine ⟨by omega, fun i h1 h2 => ?_, ih.2.2⟩
      by_cases e : i = p + 1
      · rw [e]; exact h
      · exact ih.2.1 i h1 (by omega)
    · rename_i h
      exact ⟨by omega, fun i h1 h2 => by omega, fun _ => h⟩

theorem strip_append_zeros (a : List UInt8) (k : Nat) (h : ∀ c, a.getLast? = some c → c ≠ 48) : strip (a ++ List.replicate k 48) = a := by
  unfold strip
  rw [List.reverse_append, List.reverse_replicate]
  have h1 : ∀ (k : Nat) (l : List UInt8), (List.replicate k 48 ++ l).dropWhile (fun c : UInt8 => decide (c = 48)) = l.dropWhile (fun c => decide (c = 48)) := by
    intro k l
    induction k with
    | zero => rfl
    | succ k ih => rw [List.replicate_succ, List.cons_append, List.dropWhile_cons_of_pos (by decide)]; exact ih
  rw [h1]
  cases hr : a.reverse with
  | nil => have : a = [] := by simpa using hr
           rw [this]; rfl
  | cons c l =>
    have : a.getLast? = some c := by rw [List.getLast?_eq_head?_reverse, hr]; rfl
    rw [List.dropWhile_cons_of_neg (by simpa using h c this), ← hr, List.reverse_reverse]

/-- What is left of the digits from `j` on without the zeros at the end. -/
theorem strip_drop {ds : List UInt8} (hl : ds.length = 8) (j : Nat) (hj : j ≤ 8) (h0 : 0 < j ∨ at_ ds 0 ≠ 48) :
    strip (ds.drop j) = (ds.drop j).take (lastDig ds 7 + 1 - j) := by
  obtain ⟨a1, a2, a3⟩ := lastDig_spec ds 7
  generalize lastDig ds 7 = L at *
  have e : ds.drop j = (ds.drop j).take (L + 1 - j) ++ List.replicate (8 - j - (L + 1 - j)) 48 := by
    apply List.ext_getElem
    · simp [hl]; omega
    · intro i h1 h2
      simp only [List.length_drop, hl] at h1
      rw [List.getElem_append]
      split
      · simp
      · rename_i hi
        simp only [List.length_take, List.length_drop, hl] at hi
        rw [List.getElem_replicate, List.getElem_drop]
        have := a2 (j + i) (by omega) (by omega)
        unfold at_ at this
        rw [List.getD_eq_getElem?_getD, List.getElem?_eq_getElem (by omega)] at this
        exact this
  conv => lhs; rw [e]
  apply strip_append_zeros
  intro c hc
  have hlen : ((ds.drop j).take (L + 1 - j)).length = L + 1 - j := by simp [hl]; omega
  by_cases hz : L + 1 - j = 0
  · rw [hz] at hc; simp at hc
  · rw [List.getLast?_eq_getElem?, hlen, List.getElem?_eq_getElem (by rw [hlen]; omega)] at hc
    rw [← Option.some.inj hc]
    rw [List.getElem_take, List.getElem_drop]
    have hL : at_ ds L ≠ 48 := by
      by_cases hL0 : L = 0
      · subst hL0
        exact h0.resolve_left (by omega)
      · exact a3 hL0
    unfold at_ at hL
    rw [List.getD_eq_getElem?_getD, List.getElem?_eq_getElem (by omega)] at hL
    simp only [show j + (L + 1 - j - 1) = L by omega]
    exact hL

/-- The text in terms of `%g`. -/
def text8 (ds : List UInt8) (exp : Int) : List UInt8 :=
  if -4 ≤ exp ∧ exp ≤ 7 then
    if 0 ≤ exp then point (ds.take (exp.toNat + 1)) (strip (ds.drop (exp.toNat + 1)))
    else point [48] (strip (List.replicate ((-exp).toNat - 1) 48 ++ ds))
  else point (ds.take 1) (strip (ds.drop 1)) ++ [101, if exp < 0 then 45 else 43] ++ pad 2 exp.natAbs

theorem take_eq_nil' {l : List UInt8} {k : Nat} (h : k ≤ l.length) : l.take k = [] ↔ k = 0 := by
  rw [← List.length_eq_zero_iff, List.length_take]; omega

theorem strfromg_text (m : Bool) (ds : List UInt8) (exp : Int) (hl : ds.length = 8) (h0 : 0 ≤ exp ∨ at_ ds 0 ≠ 48) (hx : exp.natAbs < 100) :
    strfromg ⟨m, false, false, ds, exp⟩ = (if m then [45] else []) ++ text8 ds exp := by
  unfold strfromg text8
  simp only [Bool.false_eq_true, if_false, decide_eq_true_eq]
  congr 1
  obtain ⟨a1, a2, a3⟩ := lastDig_spec ds 7
  split
  · rename_i hfix
    by_cases hp : 0 ≤ exp
    · obtain ⟨x, rfl⟩ := Int.eq_ofNat_of_zero_le hp
      rw [if_pos hp, strip_drop hl _ (by omega) (.inl (by omega))]
      have e : (if 0 < (x : Int) then (x : Int) else 0) = x := by split <;> omega
      rw [e, fix_pos _ _ _ _ (by omega)]
      generalize lastDig ds 7 = L at *
      have hdig : ∀ i : Nat, i ≤ 7 → digAt ds x (L + 1) ((x : Int) - i) = at_ ds i := by
        intro i hi
        unfold digAt
        split
        · congr 1; omega
        · rename_i h
          exact (a2 i (by omega) hi).symm
      rw [row_take _ ds x (x + 1) 0 x (by omega) (by omega) (fun i _ h => hdig i (by omega)), List.drop_zero]
      rw [Int.toNat_natCast]
      unfold point
      by_cases hL : (L : Int) > x
      · have h1 : ¬ ((L : Int) - x).toNat = 0 := by omega
        rw [if_pos hL, if_neg h1, if_neg]
        · rw [row_take _ ds x _ (x + 1) (-1) (by omega) (by omega) (fun i _ h => hdig i (by omega)), show L + 1 - (x + 1) = ((L : Int) - x).toNat by omega]
          simp
        · rw [take_eq_nil' (by simp [hl]; omega)]; omega
      · rw [if_neg hL, if_pos rfl, show L + 1 - (x + 1) = 0 by omega]
        simp
    · replace h0 := h0.resolve_left hp
      rw [if_neg hp, if_neg (show ¬ 0 < exp by omega), if_pos (show ((lastDig ds 7 : Nat) : Int) > exp by omega)]
      clear hx
      obtain ⟨x, rfl⟩ : ∃ x : Nat, exp = -(x + 1 : Nat) := ⟨(-exp).toNat - 1, by omega⟩
      have hs : strip (List.replicate ((- -((x + 1 : Nat) : Int)).toNat - 1) 48 ++ ds) = List.replicate x 48 ++ strip ds := by
        rw [show (- -((x + 1 : Nat) : Int)).toNat - 1 = x by omega]
        have := strip_zeros ds
        have hd := strip_drop hl 0 (by omega) (.inr h0)
        rw [List.drop_zero] at hd
        have hne : strip ds ≠ [] := by
          rw [hd]; intro h
          rw [take_eq_nil' (by omega)] at h
          omega
        conv => lhs; rw [this, ← List.append_assoc]
        apply strip_append_zeros
        intro c hc
        rw [List.getLast?_append, Option.or_of_isSome (by rw [List.getLast?_eq_some_getLast hne]; rfl)] at hc
        unfold strip at hc
        rw [List.getLast?_reverse] at hc
        have := List.head?_dropWhile_not (fun c : UInt8 => decide (c = 48)) ds.reverse
        rw [hc] at this
        simpa using this
      rw [hs]
      have hd := strip_drop hl 0 (by omega) (.inr h0)
      rw [List.drop_zero, Nat.sub_zero] at hd
      rw [hd]
      generalize lastDig ds 7 = L at *
      have e : ((L : Int) - -((x + 1 : Nat) : Int)).toNat = x + (L + 1) := by omega
      rw [e, show (0 : Int) = ((0 : Nat) : Int) from rfl, fix_pos _ _ _ _ (by omega), if_neg (by omega)]
      rw [row_append _ x (L + 1), row_zero _ x (-1) (fun i hi => ?_), row_take _ ds (-((x + 1 : Nat) : Int)) (L + 1) 0 _ (by omega) (by omega) (fun i _ h => ?_)]
      · unfold point
        rw [if_neg (by simp; intro _ ; rintro rfl; simp at hl)]
        have : digAt ds (-((x + 1 : Nat) : Int)) (L + 1) ((0 : Nat) : Int) = 48 := by unfold digAt; rw [if_neg (by omega)]
        simp only [row, this]
        simp
      · unfold digAt
        rw [if_pos (by omega)]
        congr 1; omega
      · unfold digAt; rw [if_neg (by omega)]
  · rename_i hfix
    unfold expText
    rw [strip_drop hl 1 (by omega) (.inl (by omega))]
    have hp2 : pad 2 exp.natAbs = [digit false (exp.natAbs / 10), digit false (exp.natAbs % 10)] := by
      simp only [pad, List.nil_append, List.singleton_append]
      rw [Nat.mod_eq_of_lt (show exp.natAbs / 10 < 10 by omega)]
    have ht : ds.take 1 = [at_ ds 0] := by
      match ds, hl with
      | a :: _, _ => rfl
    rw [hp2, ht]
    generalize lastDig ds 7 = L at *
    rw [Nat.add_sub_cancel]
    unfold point
    by_cases hL : L = 0
    · subst hL; simp
    · rw [if_pos hL, if_neg (show ¬ (ds.drop 1).take L = [] by rw [take_eq_nil' (by simp [hl]; omega)]; exact hL)]
      simp

end Snek.Strfromg
