import Verif.Proofs.DrawBits
import Verif.Spec.Draw
/-!
# The line loop
-/
namespace Snek.Draw
open Spec.Draw

theorem i8_id {x : Int} (h1 : -128 ≤ x) (h2 : x ≤ 127) : i8 x = x := by unfold i8; omega

/-- The points of a path are set to the colour, other points are not. -/
def Painted (s s' : S) (path : List (Int × Int)) : Prop :=
  ∀ a b : Nat, a < 64 → b < 32 → pixel s'.fb a b = if ((a : Int), (b : Int)) ∈ path then decide (s.color = 1) else pixel s.fb a b

/-- The remaining points, from `i` steps in x and `j` in y. -/
structure Tail (x0 y0 sx sy D E M : Int) (i j n : Nat) (path : List (Int × Int)) : Prop where
  length : path.length = n + 1
  first : path.head? = some (x0 + sx * i, y0 + sy * j)
  last : path.getLast? = some (x0 + sx * D, y0 + sy * E)
  next : ∀ (k : Nat) (p q : Int × Int), path[k]? = some p → path[k + 1]? = some q → dist p.1 q.1 ≤ 1 ∧ dist p.2 q.2 ≤ 1
  near : ∀ p ∈ path, ∃ i j : Nat, p = (x0 + sx * i, y0 + sy * j) ∧ -M ≤ 2 * (D * j - E * i) ∧ 2 * (D * j - E * i) ≤ M

theorem loop_spec {x0 y0 sx sy D E : Int} (hsx : sx = 1 ∨ sx = -1) (hsy : sy = 1 ∨ sy = -1) (hD : 0 ≤ D) (hE : 0 ≤ E)
    (hin : ∀ t : Int, 0 ≤ t → t ≤ D → 0 ≤ x0 + sx * t ∧ x0 + sx * t ≤ 63) (hin' : ∀ t : Int, 0 ≤ t → t ≤ E → 0 ≤ y0 + sy * t ∧ y0 + sy * t ≤ 31)
    (hD63 : D ≤ 63) (hE31 : E ≤ 31) (hw : 3 * D ≤ 2 * E + 127 ∨ E = 0) :
    ∀ (n i j : Nat) (s : S), s.fb.length = 256 → (s.color = 0 ∨ s.color = 1) → s.lastX = x0 + sx * i → s.lastY = y0 + sy * j →
      (i : Int) ≤ D → (j : Int) ≤ E → (if E ≤ D then (i : Int) + n = D else (j : Int) + n = E) →
      -(max D E) ≤ 2 * (D * j - E * i) → 2 * (D * j - E * i) ≤ max D E →
      ∃ s' path, lineLoop D (-E) sx sy n (D * (j + 1) - E * (i + 1)) s = some s' ∧ Tail x0 y0 sx sy D E (max D E) i j n path ∧
        Painted s s' path ∧ s'.fb.length = 256 ∧ s'.color = s.color ∧ s'.been = s.been ∧ s'.lastX = x0 + sx * D ∧ s'.lastY = y0 + sy * E ∧ (Mirror s → Mirror s') := by
  intro n
  induction n with
  | zero =>
    intro i j s hl hc hx hy hi hj hn hlo hhi
    have hij : (i : Int) = D ∧ (j : Int) = E := by
      by_cases hmaj : E ≤ D
      · rw [if_pos hmaj] at hn
        have hiD : (i : Int) = D := by omega
        refine ⟨hiD, ?_⟩
        rw [Int.max_eq_left hmaj] at hlo hhi
        rw [hiD] at hlo hhi
        by_cases hD0 : D = 0
        · omega
        · have hc : D * j - E * D = D * (j - E) := by rw [Int.mul_sub, Int.mul_comm E D]
          rw [hc] at hlo hhi
          have h1 : ¬ ((j : Int) - E ≤ -1) := by
            intro h
            have := Int.mul_le_mul_of_nonneg_left h hD
            omega
          omega
      · rw [if_neg hmaj] at hn
        have hjE : (j : Int) = E := by omega
        refine ⟨?_, hjE⟩
        rw [Int.max_eq_right (by omega)] at hlo hhi
        rw [hjE] at hlo hhi
        have hc : D * E - E * i = E * (D - i) := by rw [Int.mul_sub, Int.mul_comm E D]
        rw [hc] at hlo hhi
        have h1 : ¬ (1 ≤ D - (i : Int)) := by
          intro h
          have := Int.mul_le_mul_of_nonneg_left h hE
          omega
        omega
    obtain ⟨hx1, hx2⟩ := hin i (by omega) hi
    obtain ⟨hy1, hy2⟩ := hin' j (by omega) hj
    obtain ⟨x, hxn⟩ := Int.eq_ofNat_of_zero_le hx1
    obtain ⟨y, hyn⟩ := Int.eq_ofNat_of_zero_le hy1
    obtain ⟨s', h1, h2, h3, h4, h5, h6, h7, h8⟩ := setBit_spec s hl hc x y (by omega) (by omega)
    rw [← hxn, ← hyn, ← hx, ← hy] at h1
    refine ⟨s', [(x0 + sx * i, y0 + sy * j)], ?_, ⟨rfl, rfl, ?_, ?_, ?_⟩, ?_, h2, h3, h4, ?_, ?_, h8⟩
    · unfold lineLoop; rw [h1]
    · rw [hij.1, hij.2]; rfl
    · intro k p q _ hq; simp at hq
    · intro p hp
      rw [List.mem_singleton] at hp
      exact ⟨i, j, hp, hlo, hhi⟩
    · intro a b ha hb
      rw [h7 a b ha hb, hxn, hyn]
      have : ((a : Int), (b : Int)) ∈ [((x : Int), (y : Int))] ↔ a = x ∧ b = y := by
        rw [List.mem_singleton, Prod.mk.injEq]; omega
      by_cases h : a = x ∧ b = y
      · rw [if_pos h, if_pos (this.2 h)]
      · rw [if_neg h, if_neg (fun h' => h (this.1 h'))]
    · rw [h5, hx, hij.1]
    · rw [h6, hy, hij.2]
  | succ n ih =>
    intro i j s hl hc hx hy hi hj hn hlo hhi
    obtain ⟨hx1, hx2⟩ := hin i (by omega) hi
    obtain ⟨hy1, hy2⟩ := hin' j (by omega) hj
    obtain ⟨x, hxn⟩ := Int.eq_ofNat_of_zero_le hx1
    obtain ⟨y, hyn⟩ := Int.eq_ofNat_of_zero_le hy1
    obtain ⟨t, h1, h2, h3, h4, h5, h6, h7, h8⟩ := setBit_spec s hl hc x y (by omega) (by omega)
    rw [← hxn, ← hyn, ← hx, ← hy] at h1
    -- the error term
    generalize hP : D * (j : Int) = Pj at *
    generalize hQ : E * (i : Int) = Qi at *
    have eP : D * ((j : Int) + 1) = Pj + D := by rw [Int.mul_add, hP, Int.mul_one]
    have eQ : E * ((i : Int) + 1) = Qi + E := by rw [Int.mul_add, hQ, Int.mul_one]
    have hM1 : D ≤ max D E := Int.le_max_left _ _
    have hM2 : E ≤ max D E := Int.le_max_right _ _
    have hM3 : max D E = D ∨ max D E = E := by omega
    -- with a horizontal line there is no error
    have hE0 : E = 0 → Pj = 0 ∧ Qi = 0 := by
      intro h
      have hj0 : (j : Int) = 0 := by omega
      constructor
      · rw [← hP, hj0, Int.mul_zero]
      · rw [← hQ, h, Int.zero_mul]
    have hr1 : -64 ≤ Pj + D - (Qi + E) := by omega
    have hr2 : Pj + D - (Qi + E) ≤ 63 := by
      rcases hw with h | h
      · rcases hM3 with h' | h' <;> omega
      · obtain ⟨a, b⟩ := hE0 h; omega
    have he2 : i8 ((D * (j + 1) - E * (i + 1)) * 2) = (Pj + D - (Qi + E)) * 2 := by
      rw [eP, eQ]; exact i8_id (by omega) (by omega)
    -- the steps taken
    generalize hbx : decide ((Pj + D - (Qi + E)) * 2 ≥ -E) = bx
    generalize hby : decide ((Pj + D - (Qi + E)) * 2 ≤ D) = by_
    have hstepX : ((j : Int) + (n + 1 : Nat) = E ∧ ¬ E ≤ D) ∨ bx = true := by
      by_cases hmaj : E ≤ D
      · rw [Int.max_eq_left hmaj] at hlo hhi
        refine .inr ?_
        rw [← hbx, decide_eq_true_iff]; omega
      · rw [if_neg hmaj] at hn; exact .inl ⟨hn, hmaj⟩
    have hstepY : ((i : Int) + (n + 1 : Nat) = D ∧ E ≤ D) ∨ by_ = true := by
      by_cases hmaj : E ≤ D
      · rw [if_pos hmaj] at hn; exact .inl ⟨hn, hmaj⟩
      · rw [Int.max_eq_right (by omega)] at hlo hhi
        refine .inr ?_
        rw [← hby, decide_eq_true_iff]; omega
    have hbx' : bx = true ↔ (Pj + D - (Qi + E)) * 2 ≥ -E := by rw [← hbx, decide_eq_true_iff]
    have hby' : by_ = true ↔ (Pj + D - (Qi + E)) * 2 ≤ D := by rw [← hby, decide_eq_true_iff]
    -- new position
    have key : ∃ i' j' : Nat, i' = (if bx then i + 1 else i) ∧ j' = (if by_ then j + 1 else j) ∧ (i' : Int) ≤ D ∧ (j' : Int) ≤ E ∧
        (if E ≤ D then (i' : Int) + n = D else (j' : Int) + n = E) ∧ D * (j' : Int) = (if by_ then Pj + D else Pj) ∧ E * (i' : Int) = (if bx then Qi + E else Qi) := by
      refine ⟨_, _, rfl, rfl, ?_, ?_, ?_, ?_, ?_⟩
      · -- i' ≤ D
        cases hb : bx with
        | false => simp only [Bool.false_eq_true, if_false]; exact hi
        | true =>
          simp only [if_true]
          by_cases hmaj : E ≤ D
          · rw [if_pos hmaj] at hn; omega
          · rw [if_neg hmaj] at hn
            rw [Int.max_eq_right (by omega)] at hlo hhi
            have hb' := hbx'.1 hb
            -- 2 Pj + 2 D ≥ 2 Qi + E, j < E
            have hPE : Pj ≤ D * (E - 1) := by
              rw [← hP]
              exact Int.mul_le_mul_of_nonneg_left (by omega) hD
            rw [Int.mul_sub, Int.mul_one] at hPE
            have hlt : ¬ (D ≤ (i : Int)) := by
              intro h
              have := Int.mul_le_mul_of_nonneg_left h hE
              rw [hQ, Int.mul_comm E D] at this
              omega
            omega
      · cases hb : by_ with
        | false => simp only [Bool.false_eq_true, if_false]; exact hj
        | true =>
          simp only [if_true]
          by_cases hmaj : E ≤ D
          · rw [if_pos hmaj] at hn
            rw [Int.max_eq_left hmaj] at hlo hhi
            have hb' := hby'.1 hb
            have hQD : Qi ≤ E * (D - 1) := by
              rw [← hQ]
              exact Int.mul_le_mul_of_nonneg_left (by omega) hE
            rw [Int.mul_sub, Int.mul_one] at hQD
            have hlt : ¬ (E ≤ (j : Int)) := by
              intro h
              have := Int.mul_le_mul_of_nonneg_left h hD
              rw [hP, Int.mul_comm D E] at this
              omega
            omega
          · rw [if_neg hmaj] at hn; omega
      · by_cases hmaj : E ≤ D
        · rw [if_pos hmaj] at hn ⊢
          rcases hstepX with h | h
          · exact absurd hmaj h.2
          · rw [h]; simp only [if_true]; omega
        · rw [if_neg hmaj] at hn ⊢
          rcases hstepY with h | h
          · exact absurd h.2 hmaj
          · rw [h]; simp only [if_true]; omega
      · cases by_ with
        | false => exact hP
        | true => simp only [if_true]; rw [← eP]; norm_cast
      · cases bx with
        | false => exact hQ
        | true => simp only [if_true]; rw [← eQ]; norm_cast
    obtain ⟨i', j', hi', hj', hiD, hjE, hn', hP', hQ'⟩ := key
    have hlo' : -(max D E) ≤ 2 * (D * (j' : Int) - E * i') := by
      rw [hP', hQ']
      cases hb1 : bx <;> cases hb2 : by_ <;> simp only [if_true, Bool.false_eq_true, if_false]
      · exact hlo
      · rcases hstepX with h | h
        · rw [Int.max_eq_right (by omega)] at hlo hhi ⊢; omega
        · rw [hb1] at h; cases h
      · have : ¬ ((Pj + D - (Qi + E)) * 2 ≤ D) := fun h => by rw [hby'.2 h] at hb2; cases hb2
        rcases hstepY with h | h
        · rw [Int.max_eq_left h.2] at hlo hhi ⊢; omega
        · rw [hb2] at h; cases h
      · have h1 := hbx'.1 hb1
        by_cases hmaj : E ≤ D
        · rw [Int.max_eq_left hmaj] at hlo hhi ⊢; omega
        · rw [Int.max_eq_right (by omega)] at hlo hhi ⊢; omega
    have hhi' : 2 * (D * (j' : Int) - E * i') ≤ max D E := by
      rw [hP', hQ']
      cases hb1 : bx <;> cases hb2 : by_ <;> simp only [if_true, Bool.false_eq_true, if_false]
      · exact hhi
      · have : ¬ ((Pj + D - (Qi + E)) * 2 ≥ -E) := fun h => by rw [hbx'.2 h] at hb1; cases hb1
        rcases hstepX with h | h
        · rw [Int.max_eq_right (by omega)] at hlo hhi ⊢; omega
        · rw [hb1] at h; cases h
      · rcases hstepY with h | h
        · rw [Int.max_eq_left h.2] at hlo hhi ⊢; omega
        · rw [hb2] at h; cases h
      · have h1 := hby'.1 hb2
        by_cases hmaj : E ≤ D
        · rw [Int.max_eq_left hmaj] at hlo hhi ⊢; omega
        · rw [Int.max_eq_right (by omega)] at hlo hhi ⊢; omega
    -- the state after the steps
    let t' : S := { t with lastX := x0 + sx * i', lastY := y0 + sy * j' }
    have hxi : i8 (x0 + sx * (i : Int) + sx) = x0 + sx * (i + 1) := by
      have : x0 + sx * (i : Int) + sx = x0 + sx * (i + 1) := by rw [Int.mul_add, Int.mul_one]; omega
      rw [this]
      rw [Int.mul_add, Int.mul_one]
      exact i8_id (by rcases hsx with h | h <;> omega) (by rcases hsx with h | h <;> omega)
    have hyj : i8 (y0 + sy * (j : Int) + sy) = y0 + sy * (j + 1) := by
      have : y0 + sy * (j : Int) + sy = y0 + sy * (j + 1) := by rw [Int.mul_add, Int.mul_one]; omega
      rw [this]
      rw [Int.mul_add, Int.mul_one]
      exact i8_id (by rcases hsy with h | h <;> omega) (by rcases hsy with h | h <;> omega)
    have hloop : lineLoop D (-E) sx sy (n + 1) (D * (j + 1) - E * (i + 1)) s = lineLoop D (-E) sx sy n (D * (j' + 1) - E * (i' + 1)) t' := by
      conv => lhs; unfold lineLoop
      rw [h1]
      simp only []
      rw [he2]
      have eP2 : D * ((j' : Int) + 1) = (if by_ then Pj + D else Pj) + D := by rw [Int.mul_add, hP', Int.mul_one]
      have eQ2 : E * ((i' : Int) + 1) = (if bx then Qi + E else Qi) + E := by rw [Int.mul_add, hQ', Int.mul_one]
      rw [eP2, eQ2, eP, eQ]
      have r1 : i8 (Pj + D - (Qi + E) + -E) = Pj + D - (Qi + E) + -E := i8_id (by omega) (by omega)
      have r2 : by_ = true → i8 (Pj + D - (Qi + E) + D) = Pj + D - (Qi + E) + D := fun h => by
        have := hby'.1 h; exact i8_id (by omega) (by omega)
      have r3 : by_ = true → i8 (Pj + D - (Qi + E) + -E + D) = Pj + D - (Qi + E) + -E + D := fun h => by
        have := hby'.1 h; exact i8_id (by omega) (by omega)
      cases hb1 : bx <;> cases hb2 : by_
      · have n1 : ¬ ((Pj + D - (Qi + E)) * 2 ≥ -E) := fun h => by rw [hbx'.2 h] at hb1; cases hb1
        have n2 : ¬ ((Pj + D - (Qi + E)) * 2 ≤ D) := fun h => by rw [hby'.2 h] at hb2; cases hb2
        rw [if_neg n1]; simp only []; rw [if_neg n2]; simp only [Bool.false_eq_true, if_false]
        rw [hb1] at hi'; rw [hb2] at hj'
        simp only [Bool.false_eq_true, if_false] at hi' hj'
        congr 1
        show t = { t with lastX := _, lastY := _ }
        rw [hi', hj', ← hx, ← hy, ← h5, ← h6]
      · have n1 : ¬ ((Pj + D - (Qi + E)) * 2 ≥ -E) := fun h => by rw [hbx'.2 h] at hb1; cases hb1
        rw [if_neg n1]; simp only []; rw [if_pos (hby'.1 hb2)]; simp only [Bool.false_eq_true, if_false, if_true]
        rw [hb1] at hi'; rw [hb2] at hj'
        simp only [Bool.false_eq_true, if_false, if_true] at hi' hj'
        rw [r2 hb2]
        congr 1
        · omega
        · show { t with lastY := i8 (t.lastY + sy) } = { t with lastX := _, lastY := _ }
          rw [hi', hj', h6, hy, hyj, ← hx, ← h5]; norm_cast
      · have n2 : ¬ ((Pj + D - (Qi + E)) * 2 ≤ D) := fun h => by rw [hby'.2 h] at hb2; cases hb2
        rw [if_pos (hbx'.1 hb1)]; simp only []; rw [if_neg n2]; simp only [Bool.false_eq_true, if_false, if_true]
        rw [hb1] at hi'; rw [hb2] at hj'
        simp only [Bool.false_eq_true, if_false, if_true] at hi' hj'
        rw [r1]
        congr 1
        · omega
        · show { t with lastX := i8 (t.lastX + sx) } = { t with lastX := _, lastY := _ }
          rw [hi', hj', h5, hx, hxi, ← hy, ← h6]; norm_cast
      · rw [if_pos (hbx'.1 hb1)]; simp only []; rw [if_pos (hby'.1 hb2)]; simp only [if_true]
        rw [hb1] at hi'; rw [hb2] at hj'
        simp only [if_true] at hi' hj'
        rw [r1, r3 hb2]
        congr 1
        · omega
        · show { t with lastX := i8 (t.lastX + sx), lastY := i8 (t.lastY + sy) } = { t with lastX := _, lastY := _ }
          rw [hi', hj', h5, hx, hxi, h6, hy, hyj]; norm_cast
    obtain ⟨s', path, g1, g2, g3, g4, g5, g6, g7, g8, g9⟩ := ih i' j' t' h2 (by rw [show t'.color = t.color from rfl, h3]; exact hc) rfl rfl hiD hjE hn' hlo' hhi'
    refine ⟨s', (x0 + sx * i, y0 + sy * j) :: path, hloop.trans g1, ⟨by rw [List.length_cons, g2.length], rfl, ?_, ?_, ?_⟩, ?_, g4, g5.trans h3, g6.trans h4, g7, g8, fun hm => g9 (h8 hm)⟩
    · rw [List.getLast?_cons, g2.last]; rfl
    · intro k p q hp hq
      cases k with
      | zero =>
        simp only [List.getElem?_cons_zero, Option.some.injEq] at hp
        simp only [Nat.zero_add, List.getElem?_cons_succ] at hq
        have hq0 : path.head? = some q := by rw [List.head?_eq_getElem?]; exact hq
        rw [g2.first, Option.some.injEq] at hq0
        subst hp hq0
        simp only [dist]
        constructor
        · cases hb : bx <;> rw [hb] at hi' <;> simp only [Bool.false_eq_true, if_false, if_true] at hi' <;> rw [hi']
          · omega
          · push_cast; rw [Int.mul_add, Int.mul_one]; rcases hsx with h | h <;> omega
        · cases hb : by_ <;> rw [hb] at hj' <;> simp only [Bool.false_eq_true, if_false, if_true] at hj' <;> rw [hj']
          · omega
          · push_cast; rw [Int.mul_add, Int.mul_one]; rcases hsy with h | h <;> omega
      | succ k =>
        simp only [List.getElem?_cons_succ] at hp hq
        exact g2.next k p q hp hq
    · intro p hp
      rcases List.mem_cons.1 hp with h | h
      · exact ⟨i, j, h, by rw [hP, hQ]; exact hlo, by rw [hP, hQ]; exact hhi⟩
      · exact g2.near p h
    · intro a b ha hb
      rw [g3 a b ha hb, show t'.color = t.color from rfl, h3, show t'.fb = t.fb from rfl, h7 a b ha hb]
      have : ((a : Int), (b : Int)) = (x0 + sx * i, y0 + sy * j) ↔ a = x ∧ b = y := by
        rw [hxn, hyn, Prod.mk.injEq]; omega
      by_cases hm : ((a : Int), (b : Int)) ∈ path
      · rw [if_pos hm, if_pos (List.mem_cons_of_mem _ hm)]
      · rw [if_neg hm]
        by_cases h : a = x ∧ b = y
        · rw [if_pos h, if_pos (List.mem_cons.2 (.inl (this.2 h)))]
        · rw [if_neg h, if_neg]
          intro h'
          rcases List.mem_cons.1 h' with h' | h'
          · exact h (this.1 h')
          · exact hm h'

end Snek.Draw
