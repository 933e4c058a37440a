import Verif.Props.C41
import Verif.Props.C59
import Verif.Proofs.AtofScale
/-!
# C66: number literals with fraction and exponent

On the builds that convert text with `atoff` (AVR) a literal denotes the number written to within one part in a million, if that number
is not too large or small for normal floating point numbers.
-/
namespace Snek.Atof
open Snek.Lex Spec

/-- What the digit loop has found: `D` is the number made of the digits so far, `f` how many of them followed the point, `j` how many were
dropped. -/
structure Found (a : Acc) (D f j : Nat) : Prop where
  exp : a.exp = (j : Int) - f
  lo : a.x * 10 ^ j ≤ D
  hi : D < (a.x + 1) * 10 ^ j
  fresh : a.ovfl = false → j = 0 ∧ a.x < 429496728
  full : a.ovfl = true → 429496728 ≤ a.x
  fits : a.x < 2 ^ 32

theorem digit_sub : ∀ c : UInt8, Digit c → c - 48 ≤ 9 ∧ (c - 48).toNat = c.toNat - 48 ∧ c.toNat - 48 ≤ 9 := forall_byte (by decide +kernel)

theorem digits_run (l : List Ch) (h : ∀ c ∈ l, Digit c) (rest : List Ch) (a : Acc) (D f j : Nat) (H : Found a D f j) :
    ∃ a' j', digits (l ++ rest) a = digits rest a' ∧ a'.dot = a.dot ∧ Found a' (dec D l) (if a.dot then f + l.length else f) j' ∧ j' ≤ j + l.length := by
  induction l generalizing a D f j with
  | nil => exact ⟨a, j, rfl, rfl, by simpa [dec] using H, by simp⟩
  | cons c l ih =>
    obtain ⟨h1, h2, h3⟩ := digit_sub c (h c (by simp))
    have step : ∃ a1 j1, digits (c :: l ++ rest) a = digits (l ++ rest) a1 ∧ a1.dot = a.dot ∧
        Found a1 (10 * D + (c.toNat - 48)) (if a.dot then f + 1 else f) j1 ∧ j1 ≤ j + 1 := by
      rw [List.cons_append, digits, if_pos h1]
      cases ho : a.ovfl with
      | true =>
        simp only [if_true]
        refine ⟨_, j + 1, rfl, rfl, ⟨?_, ?_, ?_, ?_, fun _ => H.full ho, H.fits⟩, by omega⟩
        · have := H.exp
          simp only []
          cases a.dot <;> simp <;> omega
        · have := H.lo
          simp only [Nat.pow_succ]
          rw [← Nat.mul_assoc]; omega
        · have := H.hi
          simp only [Nat.pow_succ]
          rw [← Nat.mul_assoc]; omega
        · simp [ho]
      | false =>
        obtain ⟨rfl, hx⟩ := H.fresh ho
        have hD : D = a.x := by
          have l1 := H.lo
          have l2 := H.hi
          simp only [Nat.pow_zero, Nat.mul_one] at l1 l2
          omega
        subst hD
        have hm : (a.x * 10 + (c - 48).toNat) % 2 ^ 32 = 10 * a.x + (c.toNat - 48) := by rw [h2]; omega
        simp only [Bool.false_eq_true, if_false, hm]
        refine ⟨_, 0, rfl, rfl, ⟨?_, ?_, ?_, ?_, ?_, ?_⟩, by omega⟩
        · have := H.exp
          simp only []
          cases a.dot <;> simp <;> omega
        · simp
        · simp
        · intro h'
          have := of_decide_eq_false h'
          refine ⟨rfl, ?_⟩
          simp only []
          omega
        · intro h'
          have := of_decide_eq_true h'
          simp only []
          omega
        · simp only []; omega
    obtain ⟨a1, j1, e1, e2, H1, hj⟩ := step
    obtain ⟨a', j', g1, g2, g3, g4⟩ := ih (fun x hx => h x (by simp [hx])) a1 _ _ _ H1
    refine ⟨a', j', e1.trans g1, g2.trans e2, ?_, by rw [List.length_cons]; omega⟩
    rw [e2] at g3
    rw [List.length_cons]
    cases ha : a.dot <;> rw [ha] at g3 <;> simp only [Bool.false_eq_true, if_false, if_true] at g3 ⊢
    · exact g3
    · rw [show f + (l.length + 1) = f + 1 + l.length by omega]; exact g3

theorem expDigits_dec (l : List Ch) (h : ∀ c ∈ l, Digit c) (i : Nat) (hv : dec i l < 32000) : expDigits l i = dec i l := by
  induction l generalizing i with
  | nil => rfl
  | cons c l ih =>
    obtain ⟨h1, h2, h3⟩ := digit_sub c (h c (by simp))
    have hle : 10 * i + (c.toNat - 48) ≤ dec i (c :: l) := dec_mono l _
    rw [expDigits, if_pos h1, if_pos (by omega), h2, Nat.mul_comm i 10]
    exact ih (fun x hx => h x (by simp [hx])) _ hv

theorem dec_lt (l : List Ch) (h : ∀ c ∈ l, Digit c) (D : Nat) : dec D l < (D + 1) * 10 ^ l.length := by
  induction l generalizing D with
  | nil => simp [dec]
  | cons c l ih =>
    obtain ⟨_, _, h3⟩ := digit_sub c (h c (by simp))
    have := ih (fun x hx => h x (by simp [hx])) (10 * D + (c.toNat - 48))
    refine Nat.lt_of_lt_of_le this ?_
    rw [List.length_cons, Nat.pow_succ, Nat.mul_comm (10 ^ l.length) 10, ← Nat.mul_assoc]
    exact Nat.mul_le_mul_right _ (by omega)

theorem dec_append (D : Nat) (l m : List Ch) : dec D (l ++ m) = dec (dec D l) m := List.foldl_append ..

theorem filter_digits (l : List Ch) (h : ∀ c ∈ l, Digit c) : l.filter (· ≠ 95) = l := by
  rw [List.filter_eq_self]
  intro c hc
  have : ∀ c : UInt8, Digit c → decide (c ≠ 95) = true := forall_byte (by decide +kernel)
  exact this c (h c hc)

/-- The digit loop on a literal. -/
theorem digits_lit (ip fp ep : List Ch) (hn : Numeral ip fp ep) :
    ∃ a j, digits ((ip ++ fp ++ ep).filter (· ≠ 95)) ⟨0, 0, false, false⟩ = (a, ep) ∧ Found a (decimal (ip ++ fp.drop 1)) (fp.length - 1) j := by
  obtain ⟨d, ds, rfl, hd, hds⟩ := hn.int
  have hip : ∀ c ∈ (d :: ds).filter (· ≠ 95), Digit c := by
    intro c hc
    obtain ⟨h1, h2⟩ := List.mem_filter.1 hc
    rcases List.mem_cons.1 h1 with rfl | h1
    · exact hd
    · exact (hds c h1).resolve_right (by simpa using h2)
  have hep : ep.filter (· ≠ 95) = ep ∧ ∀ a : Acc, digits ep a = (a, ep) := by
    rcases hn.exp with rfl | ⟨e, sg, d', ds', rfl, he, hsg, hd', hds'⟩
    · exact ⟨rfl, fun _ => rfl⟩
    · constructor
      · rw [List.filter_cons_of_pos (by rcases he with rfl | rfl <;> decide), List.filter_append, filter_digits (d' :: ds') (by
          intro c hc
          rcases List.mem_cons.1 hc with rfl | hc
          · exact hd'
          · exact hds' c hc)]
        rcases hsg with rfl | rfl | rfl <;> rfl
      · intro a
        rw [digits, if_neg (by rcases he with rfl | rfl <;> decide), if_neg (by rcases he with rfl | rfl <;> simp)]
  rw [List.filter_append, List.filter_append, hep.1]
  obtain ⟨a1, j1, e1, e2, H1, -⟩ := digits_run _ hip (fp.filter (· ≠ 95) ++ ep) ⟨0, 0, false, false⟩ 0 0 0
    ⟨by simp, by simp, by simp, fun _ => ⟨rfl, by simp⟩, by simp, by simp⟩
  rw [List.append_assoc, e1]
  simp only [Bool.false_eq_true, if_false] at H1 e2
  have hdec : decimal (d :: ds) = dec 0 ((d :: ds).filter (· ≠ 95)) := rfl
  rcases hn.frac with rfl | ⟨fs, rfl, hfs⟩
  · refine ⟨a1, j1, ?_, ?_⟩
    · exact hep.2 a1
    · simpa [hdec] using H1
  · have hff : (46 :: fs).filter (· ≠ 95) = 46 :: fs := by
      rw [List.filter_cons_of_pos (by decide), filter_digits fs hfs]
    rw [hff]
    have e3 : digits (46 :: fs ++ ep) a1 = digits (fs ++ ep) { a1 with dot := true } := by
      rw [List.cons_append, digits, if_neg (by decide), if_pos ⟨by decide, e2⟩]
    rw [e3]
    obtain ⟨a2, j2, g1, -, H2, -⟩ := digits_run fs hfs ep { a1 with dot := true } _ _ _ (⟨H1.exp, H1.lo, H1.hi, H1.fresh, H1.full, H1.fits⟩ : Found { a1 with dot := true } _ 0 j1)
    refine ⟨a2, j2, g1.trans (hep.2 a2), ?_⟩
    have hd2 : decimal (d :: ds ++ (46 :: fs).drop 1) = dec (dec 0 ((d :: ds).filter (· ≠ 95))) fs := by
      show dec 0 ((d :: ds ++ fs).filter (· ≠ 95)) = _
      rw [List.filter_append, filter_digits fs hfs, dec_append]
    rw [hd2]
    simpa using H2

/-- The exponent of a literal. -/
theorem exponent_lit (ip fp ep : List Ch) (hn : Numeral ip fp ep) (hb : (exponentOf ep).natAbs < 32000) : exponent ep = exponentOf ep := by
  rcases hn.exp with rfl | ⟨e, sg, d, ds, rfl, he, hsg, hd, hds⟩
  · rfl
  · have hall : ∀ c ∈ d :: ds, Digit c := by
      intro c hc
      rcases List.mem_cons.1 hc with rfl | hc
      · exact hd
      · exact hds c hc
    have hdec : decimal (d :: ds) = dec 0 (d :: ds) := by
      show dec 0 ((d :: ds).filter (· ≠ 95)) = _
      rw [filter_digits _ hall]
    have he' : (e - 48) ||| 32 = 53 := by rcases he with rfl | rfl <;> decide
    rcases hsg with rfl | rfl | rfl
    · have hne : ∀ d : UInt8, Digit d → d ≠ 45 ∧ d ≠ 43 := forall_byte (by decide +kernel)
      obtain ⟨n1, n2⟩ := hne d hd
      have hx : exponentOf (e :: ([] ++ d :: ds)) = decimal (d :: ds) := by
        unfold exponentOf
        split
        · rename_i h; simp only [List.nil_append, List.cons.injEq] at h; exact absurd h.2.1 n1
        · rename_i h; simp only [List.nil_append, List.cons.injEq] at h; exact absurd h.2.1 n2
        · rename_i h; simp only [List.nil_append, List.cons.injEq] at h; rw [← h.2]
        · rename_i h; cases h
      rw [hx, hdec] at hb ⊢
      simp only [List.nil_append, exponent, if_pos he', if_neg n1, if_neg n2]
      rw [expDigits_dec _ hall 0 (by omega)]
    · have hx : exponentOf (e :: ([43] ++ d :: ds)) = decimal (d :: ds) := rfl
      rw [hx, hdec] at hb ⊢
      simp only [List.singleton_append, exponent, if_pos he', if_neg (show ¬ (43 : UInt8) = 45 by decide), if_true]
      rw [expDigits_dec _ hall 0 (by omega)]
    · have hx : exponentOf (e :: ([45] ++ d :: ds)) = -(decimal (d :: ds) : Int) := rfl
      rw [hx, hdec] at hb ⊢
      simp only [List.singleton_append, exponent, if_pos he', if_true]
      rw [expDigits_dec _ hall 0 (by omega)]

theorem Within.cross {k r N Q N' Q' : Nat} (h : Within k r N Q) (hQ : 0 < Q) (e : N * Q' = N' * Q) : Within k r N' Q' := by
  have h1 := h.lo
  have h2 := h.hi
  constructor
  · refine Nat.le_of_mul_le_mul_right (c := Q) ?_ hQ
    calc 16777215 ^ k * N' * Q = 16777215 ^ k * N * Q' := by rw [Nat.mul_assoc, ← e, Nat.mul_assoc]
      _ ≤ 16777216 ^ k * (r * Q) * Q' := Nat.mul_le_mul_right _ h1
      _ = 16777216 ^ k * (r * Q') * Q := by ac_rfl
  · refine Nat.le_of_mul_le_mul_right (c := Q) ?_ hQ
    calc 16777216 ^ k * (r * Q') * Q = 16777216 ^ k * (r * Q) * Q' := by ac_rfl
      _ ≤ 16777217 ^ k * N * Q' := Nat.mul_le_mul_right _ h2
      _ = 16777217 ^ k * N' * Q := by rw [Nat.mul_assoc, e, Nat.mul_assoc]

theorem found_within {x D j r U : Nat} (hlo : x * 10 ^ j ≤ D) (hhi : D < (x + 1) * 10 ^ j) (hj : j = 0 ∨ 16777216 ≤ x) (h : Within 1 r (x * U) 1) :
    Within 2 r (D * U) (10 ^ j) := by
  have h1 := h.lo
  have h2 := h.hi
  simp only [Nat.pow_one, Nat.mul_one] at h1 h2
  have hd : 16777215 * D ≤ 16777216 * (x * 10 ^ j) := by
    rcases hj with rfl | hj
    · simp only [Nat.pow_zero, Nat.mul_one] at *; omega
    · have : 16777216 * 10 ^ j ≤ x * 10 ^ j := Nat.mul_le_mul_right _ hj
      rw [Nat.add_mul, Nat.one_mul] at hhi
      generalize x * 10 ^ j = X at *
      generalize 10 ^ j = T at *
      omega
  constructor
  · calc 16777215 ^ 2 * (D * U) = (16777215 * D) * (16777215 * U) := by rw [Nat.pow_two]; ac_rfl
      _ ≤ (16777216 * (x * 10 ^ j)) * (16777215 * U) := Nat.mul_le_mul_right _ hd
      _ = 16777216 * 10 ^ j * (16777215 * (x * U)) := by ac_rfl
      _ ≤ 16777216 * 10 ^ j * (16777216 * r) := Nat.mul_le_mul_left _ h1
      _ = 16777216 ^ 2 * (r * 10 ^ j) := by rw [Nat.pow_two]; ac_rfl
  · calc 16777216 ^ 2 * (r * 10 ^ j) = 16777216 * 10 ^ j * (16777216 * r) := by rw [Nat.pow_two]; ac_rfl
      _ ≤ 16777216 * 10 ^ j * (16777217 * (x * U)) := Nat.mul_le_mul_left _ h2
      _ = 16777216 * (16777217 * U) * (x * 10 ^ j) := by ac_rfl
      _ ≤ 16777217 * (16777217 * U) * D := Nat.mul_le_mul (Nat.mul_le_mul_right _ (by decide)) hlo
      _ = 16777217 ^ 2 * (D * U) := by rw [Nat.pow_two]; ac_rfl

theorem feq_pos {f : BitVec 32} {r : Nat} (h : Pos f r) (h0 : 0 < r) : feq f 0#32 = false := by
  have hf : f.toNat ≠ 0 := by
    intro e
    have := h.2
    rw [e] at this
    have h0' : fmag 0 = 0 := by decide
    omega
  have h1 := h.1
  have hk : fkey f ≠ fkey 0#32 := by
    have e1 : fkey f = f.toNat := by unfold fkey; rw [if_pos (by omega)]
    have e2 : fkey 0#32 = 0 := by decide
    rw [e1, e2]; omega
  unfold feq
  rw [beq_false_of_ne hk, Bool.and_false]

theorem within_pos {k r N Q : Nat} (h : Within k r N Q) (hN : 0 < N) : 0 < r := by
  have h1 := h.lo
  rcases Nat.eq_zero_or_pos r with rfl | h'
  · rw [Nat.zero_mul, Nat.mul_zero] at h1
    have : 0 < 16777215 ^ k * N := Nat.mul_pos (Nat.pow_pos (by decide)) hN
    omega
  · exact h'

/-- Scaling up. -/
theorem up_spec {f : BitVec 32} {r D j n U : Nat} (hU : U = 2 ^ 149) (hf : Pos f r) (h : Within 2 r (D * U) (10 ^ j)) (hD : 10 ^ j ≤ D)
    (hhi : D * 10 ^ n ≤ 2 ^ 127 * 10 ^ j) : ∃ r', Pos (scale pwrP10 n f) r' ∧ Within 14 r' (D * U * 10 ^ n) (10 ^ j) := by
  have hj : 0 < 10 ^ j := Nat.pow_pos (by decide)
  have hn : n < 64 := by
    have h1 : 10 ^ n ≤ 2 ^ 127 := by
      refine Nat.le_of_mul_le_mul_right (c := 10 ^ j) ?_ hj
      refine Nat.le_trans ?_ hhi
      rw [Nat.mul_comm D]
      exact Nat.mul_le_mul_left _ hD
    have h2 : 2 ^ 127 < 10 ^ 39 := by decide +kernel
    have h3 : n < 39 := (Nat.pow_lt_pow_iff_right (a := 10) (by decide)).1 (Nat.lt_of_le_of_lt h1 h2)
    omega
  have hU24 : 2 ^ 24 ≤ U := by rw [hU]; decide +kernel
  have h276 : 2 ^ 127 * U = 2 ^ 276 := by rw [hU]; decide +kernel
  obtain ⟨r', g1, g2⟩ := scale_spec (fun x => 10 ^ x) (fun _ => 1) (fun x y => Nat.pow_add 10 x y) (fun _ _ => rfl) rfl rfl (fun _ => by decide) pwrP10 64 n 2 f r
    (D * U) (10 ^ j) table_p10 hn (by decide) hf h hj (by
      intro e' he'
      simp only [Nat.mul_one]
      constructor
      · calc 2 ^ 24 * 10 ^ j ≤ U * D := Nat.mul_le_mul hU24 hD
          _ = D * U * 1 := by rw [Nat.mul_one, Nat.mul_comm]
          _ ≤ D * U * 10 ^ e' := Nat.mul_le_mul_left _ (Nat.pow_pos (by decide))
      · calc D * U * 10 ^ e' ≤ D * U * 10 ^ n := Nat.mul_le_mul_left _ (Nat.pow_le_pow_right (by decide) he')
          _ = D * 10 ^ n * U := Nat.mul_right_comm ..
          _ ≤ 2 ^ 127 * 10 ^ j * U := Nat.mul_le_mul_right _ hhi
          _ = 2 ^ 127 * U * 10 ^ j := Nat.mul_right_comm ..
          _ = 2 ^ 276 * 10 ^ j := by rw [h276])
  rw [Nat.mul_one] at g2
  exact ⟨r', g1, g2⟩

/-- Scaling down. -/
theorem down_spec {f : BitVec 32} {r D j n U : Nat} (hU : U = 2 ^ 149) (hf : Pos f r) (h : Within 2 r (D * U) (10 ^ j)) (hD : D ≤ 2 ^ 32 * 10 ^ j)
    (hlo : 10 ^ j * 10 ^ n ≤ D * 2 ^ 125) : ∃ r', Pos (scale pwrM10 n f) r' ∧ Within 14 r' (D * U) (10 ^ j * 10 ^ n) := by
  have hj : 0 < 10 ^ j := Nat.pow_pos (by decide)
  have hn : n < 64 := by
    have h1 : 10 ^ n ≤ 2 ^ 32 * 2 ^ 125 := by
      refine Nat.le_of_mul_le_mul_left (a := 10 ^ n) (c := 10 ^ j) ?_ hj
      refine Nat.le_trans hlo ?_
      rw [← Nat.mul_assoc, Nat.mul_comm (10 ^ j) (2 ^ 32)]
      exact Nat.mul_le_mul_right _ hD
    have h2 : 2 ^ 32 * 2 ^ 125 < 10 ^ 48 := by decide +kernel
    have h3 : n < 48 := (Nat.pow_lt_pow_iff_right (a := 10) (by decide)).1 (Nat.lt_of_le_of_lt h1 h2)
    omega
  have hU24 : 2 ^ 24 * 2 ^ 125 = U := by rw [hU]
  have h276 : 2 ^ 32 * U ≤ 2 ^ 276 := by rw [hU]; decide +kernel
  obtain ⟨r', g1, g2⟩ := scale_spec (fun _ => 1) (fun x => 10 ^ x) (fun _ _ => rfl) (fun x y => Nat.pow_add 10 x y) rfl rfl (fun _ => Nat.pow_pos (by decide)) pwrM10 64 n 2 f r
    (D * U) (10 ^ j) table_m10 hn (by decide) hf h hj (by
      intro e' he'
      simp only [Nat.mul_one]
      constructor
      · calc 2 ^ 24 * (10 ^ j * 10 ^ e') ≤ 2 ^ 24 * (10 ^ j * 10 ^ n) := Nat.mul_le_mul_left _ (Nat.mul_le_mul_left _ (Nat.pow_le_pow_right (by decide) he'))
          _ ≤ 2 ^ 24 * (D * 2 ^ 125) := Nat.mul_le_mul_left _ hlo
          _ = D * (2 ^ 24 * 2 ^ 125) := Nat.mul_left_comm ..
          _ = D * U := by rw [hU24]
      · calc D * U ≤ 2 ^ 32 * 10 ^ j * U := Nat.mul_le_mul_right _ hD
          _ = 2 ^ 32 * U * (10 ^ j * 1) := by rw [Nat.mul_one, Nat.mul_right_comm]
          _ ≤ 2 ^ 276 * (10 ^ j * 10 ^ e') := Nat.mul_le_mul h276 (Nat.mul_le_mul_left _ (Nat.pow_pos (by decide))))
  rw [Nat.mul_one] at g2
  exact ⟨r', g1, g2⟩

theorem exp_bound {D : Nat} {E : Int} (hD0 : 0 < D) (hD : D < 10 ^ 255) (hlo : den10 E ≤ num10 D E * 2 ^ 125) (hhi : num10 D E ≤ den10 E * 2 ^ 127) :
    -300 < E ∧ E < 39 := by
  unfold den10 num10 at *
  constructor
  · rcases Int.lt_or_le E 0 with h | h
    · obtain ⟨m, rfl⟩ : ∃ m : Nat, E = -(m : Int) := ⟨E.natAbs, by omega⟩
      have e1 : (-(m : Int)).toNat = 0 := by omega
      rw [e1, Int.neg_neg, Int.toNat_natCast, Nat.pow_zero, Nat.mul_one] at hlo
      have h2 : D * 2 ^ 125 < 10 ^ 255 * 10 ^ 38 :=
        Nat.lt_of_lt_of_le (Nat.mul_lt_mul_of_pos_right hD (Nat.pow_pos (by decide))) (Nat.mul_le_mul_left _ (by decide +kernel))
      rw [← Nat.pow_add] at h2
      have h3 : m < 255 + 38 := (Nat.pow_lt_pow_iff_right (a := 10) (by decide)).1 (Nat.lt_of_le_of_lt hlo h2)
      omega
    · omega
  · rcases Int.lt_or_le E 0 with h | h
    · omega
    · obtain ⟨m, rfl⟩ : ∃ m : Nat, E = (m : Int) := ⟨E.natAbs, by omega⟩
      have e1 : (-(m : Int)).toNat = 0 := by omega
      rw [e1, Int.toNat_natCast, Nat.pow_zero, Nat.one_mul] at hhi
      have h1 : 10 ^ m ≤ D * 10 ^ m := Nat.le_mul_of_pos_left _ hD0
      have h2 : 2 ^ 127 < 10 ^ 39 := by decide +kernel
      have h3 : m < 39 := (Nat.pow_lt_pow_iff_right (a := 10) (by decide)).1 (Nat.lt_of_le_of_lt (Nat.le_trans h1 hhi) h2)
      omega

theorem cross_up {D j n : Nat} {E : Int} (hE : E = (n : Int) - j) : D * 10 ^ n * den10 E = num10 D E * 10 ^ j := by
  unfold den10 num10
  rcases Nat.le_total j n with h | h
  · have e1 : E.toNat = n - j := by omega
    have e2 : (-E).toNat = 0 := by omega
    rw [e1, e2, Nat.pow_zero, Nat.mul_one, Nat.mul_assoc, ← Nat.pow_add, Nat.sub_add_cancel h]
  · have e1 : E.toNat = 0 := by omega
    have e2 : (-E).toNat = j - n := by omega
    rw [e1, e2, Nat.pow_zero, Nat.mul_one, Nat.mul_assoc, ← Nat.pow_add, Nat.add_sub_cancel' h]

theorem decimal_lt (ip fp ep : List Ch) (hn : Numeral ip fp ep) : decimal (ip ++ fp.drop 1) < 10 ^ (ip ++ fp ++ ep).length := by
  have hall : ∀ c ∈ (ip ++ fp.drop 1).filter (· ≠ 95), Digit c := by
    intro c hc
    obtain ⟨h1, h2⟩ := List.mem_filter.1 hc
    rcases List.mem_append.1 h1 with h1 | h1
    · obtain ⟨d, ds, rfl, hd, hds⟩ := hn.int
      rcases List.mem_cons.1 h1 with rfl | h1
      · exact hd
      · exact (hds c h1).resolve_right (by simpa using h2)
    · rcases hn.frac with rfl | ⟨fs, rfl, hfs⟩
      · simp at h1
      · exact hfs c (by simpa using h1)
  have := dec_lt _ hall 0
  rw [Nat.zero_add, Nat.one_mul] at this
  refine Nat.lt_of_lt_of_le this (Nat.pow_le_pow_right (by decide) ?_)
  refine Nat.le_trans (List.length_filter_le _ _) ?_
  simp only [List.length_append, List.length_drop]
  omega

theorem pos_spec {f : BitVec 32} {r : Nat} (h : Pos f r) : f.toNat % 2 ^ 31 < 0x7f800000 ∧ f32val f = r := by
  have h1 := h.1
  refine ⟨by omega, ?_⟩
  rw [fval_eq_spec]
  exact (pos_flags h).2.2.2

/-- A number literal that stands for `n * 10^e`, between 2^-125 and 2^127 (2.4e-38 and 1.7e38), denotes on the AVR builds a number that
differs from it by at most one part in a million; zero denotes zero. (Values of numbers are in units of 2^-149.) -/
theorem C66_value (ip fp ep : List Ch) (hn : Numeral ip fp ep) (hlen : (ip ++ fp ++ ep).length ≤ 255) (n : Nat) (e : Int) (hs : Stands ip fp ep n e) :
    (n = 0 → atoff ((ip ++ fp ++ ep).filter (· ≠ 95)) = 0#32) ∧
    (den10 e ≤ num10 n e * 2 ^ 125 → num10 n e ≤ den10 e * 2 ^ 127 →
      FinNum (atoff ((ip ++ fp ++ ep).filter (· ≠ 95))) ∧
      (f32val (atoff ((ip ++ fp ++ ep).filter (· ≠ 95))) * den10 e - (num10 n e * 2 ^ 149 : Nat)).natAbs * 1000000 ≤ num10 n e * 2 ^ 149) := by
  obtain ⟨rfl, he⟩ := hs
  obtain ⟨a, j, hdig, H⟩ := digits_lit ip fp ep hn
  have hlt := decimal_lt ip fp ep hn
  generalize hD : decimal (ip ++ fp.drop 1) = D at *
  constructor
  · intro h0
    subst h0
    have hx : a.x = 0 := by
      have := H.lo
      rcases Nat.eq_zero_or_pos a.x with h | h
      · exact h
      · have := Nat.mul_pos h (Nat.pow_pos (n := j) (show 0 < 10 by decide)); omega
    unfold atoff
    rw [hdig]
    simp only [hx]
    rw [if_pos (by decide)]
    rfl
  · intro hlo hhi
    have hD0 : 0 < D := by
      rcases Nat.eq_zero_or_pos D with h | h
      · subst h
        have : 0 < den10 e := Nat.pow_pos (by decide)
        unfold num10 at hlo
        rw [Nat.zero_mul, Nat.zero_mul] at hlo
        omega
      · exact h
    have hfl : fp.length ≤ 255 := by simp only [List.length_append] at hlen; omega
    obtain ⟨b1, b2⟩ := exp_bound hD0 (Nat.lt_of_lt_of_le hlt (Nat.pow_le_pow_right (by decide) hlen)) hlo hhi
    have hexp := exponent_lit ip fp ep hn (by omega)
    have hx0 : 0 < a.x := by
      cases ho : a.ovfl with
      | true => have := H.full ho; omega
      | false =>
        obtain ⟨rfl, -⟩ := H.fresh ho
        have := H.hi
        simp only [Nat.pow_zero, Nat.mul_one] at this
        omega
    have hj : j = 0 ∨ 16777216 ≤ a.x := by
      cases ho : a.ovfl with
      | true => right; have := H.full ho; omega
      | false => exact .inl (H.fresh ho).1
    obtain ⟨r, hf, hw1⟩ := intToF_within a.x hx0 H.fits
    generalize hU : 2 ^ 149 = U at *
    have hw := found_within H.lo H.hi hj hw1
    have hUp : 0 < U := by rw [← hU]; exact Nat.pow_pos (by decide)
    have hjp : 0 < 10 ^ j := Nat.pow_pos (by decide)
    have hr0 := within_pos hw (Nat.mul_pos hD0 hUp)
    have hDj : 10 ^ j ≤ D := Nat.le_trans (Nat.le_mul_of_pos_left _ hx0) H.lo
    have hDj' : D ≤ 2 ^ 32 * 10 ^ j := Nat.le_trans (Nat.le_of_lt H.hi) (Nat.mul_le_mul_right _ H.fits)
    have hden : 0 < den10 e := Nat.pow_pos (by decide)
    have hev : a.exp + exponent ep = e + j := by rw [hexp, H.exp, he]; omega
    unfold atoff
    rw [hdig]
    simp only []
    rw [feq_pos hf hr0, hev]
    simp only [Bool.false_eq_true, if_false]
    have fin : ∀ (g : BitVec 32) (r' : Nat), Pos g r' → Within 14 r' (num10 D e * U) (den10 e) →
        FinNum g ∧ (f32val g * den10 e - (num10 D e * U : Nat)).natAbs * 1000000 ≤ num10 D e * U := by
      intro g r' h1 h2
      obtain ⟨p1, p2⟩ := pos_spec h1
      refine ⟨p1, ?_⟩
      rw [p2]
      exact h2.million
    by_cases hneg : e + j < 0
    · rw [if_pos hneg]
      obtain ⟨m, hm⟩ : ∃ m : Nat, e + j = -(m : Int) := ⟨(e + j).natAbs, by omega⟩
      have e1 : e.toNat = 0 := by omega
      have e2 : (-e).toNat = j + m := by omega
      have e3 : (e + (j : Int)).natAbs = m := by omega
      rw [e3]
      have c1 : num10 D e = D := by unfold num10; rw [e1, Nat.pow_zero, Nat.mul_one]
      have c2 : den10 e = 10 ^ j * 10 ^ m := by unfold den10; rw [e2, Nat.pow_add]
      obtain ⟨r', g1, g2⟩ := down_spec hU.symm hf hw hDj' (by rw [← c1, ← c2]; exact hlo)
      refine fin _ r' g1 ?_
      rw [c1, c2]
      exact g2
    · rw [if_neg hneg]
      obtain ⟨m, hm⟩ : ∃ m : Nat, e + j = (m : Int) := ⟨(e + j).natAbs, by omega⟩
      have e3 : (e + (j : Int)).natAbs = m := by omega
      rw [e3]
      have hc := cross_up (D := D) (show e = (m : Int) - j by omega)
      obtain ⟨r', g1, g2⟩ := up_spec (n := m) hU.symm hf hw hDj (by
        refine Nat.le_of_mul_le_mul_right (c := den10 e) ?_ hden
        rw [hc]
        calc num10 D e * 10 ^ j ≤ den10 e * 2 ^ 127 * 10 ^ j := Nat.mul_le_mul_right _ hhi
          _ = 2 ^ 127 * 10 ^ j * den10 e := by ac_rfl)
      refine fin _ r' g1 (Within.cross g2 hjp ?_)
      calc D * U * 10 ^ m * den10 e = D * 10 ^ m * den10 e * U := by ac_rfl
        _ = num10 D e * 10 ^ j * U := by rw [hc]
        _ = num10 D e * U * 10 ^ j := Nat.mul_right_comm ..

/-- Both together: the literal is read as one token up to the first character that cannot go on with it, and the token's value is the
number written to within one part in a million. -/
theorem C66_literal (C : Cfg) (s : St) (hs : Ready s) (ip fp ep : List Ch) (hn : Numeral ip fp ep) (c : Ch) (rest : List Ch)
    (hp : s.pend = ip ++ fp ++ ep ++ c :: rest) (hc : ¬ Continues fp ep c) (hlen : (ip ++ fp ++ ep).length ≤ C.maxTok) (hC : C.maxTok ≤ 255)
    (n : Nat) (e : Int) (hst : Stands ip fp ep n e) (hlo : den10 e ≤ num10 n e * 2 ^ 125) (hhi : num10 n e ≤ den10 e * 2 ^ 127) :
    ∃ s' text, Lexes C s (.number text) s' ∧ s'.pend = c :: rest ∧ FinNum (atoff text) ∧
      (f32val (atoff text) * den10 e - (num10 n e * 2 ^ 149 : Nat)).natAbs * 1000000 ≤ num10 n e * 2 ^ 149 := by
  obtain ⟨s', h1, h2, -⟩ := C41_token C s hs ip fp ep hn c rest hp hc (Nat.le_trans (List.length_filter_le _ _) hlen)
  obtain ⟨g1, g2⟩ := (C66_value ip fp ep hn (by omega) n e hst).2 hlo hhi
  exact ⟨s', _, h1, h2, g1, g2⟩

/-- 12345678901.25e-7: more digits than the conversion keeps. -/
example : Numeral [49, 50, 51, 52, 53, 54, 55, 56, 57, 48, 49] [46, 50, 53] [101, 45, 55] ∧
    Stands [49, 50, 51, 52, 53, 54, 55, 56, 57, 48, 49] [46, 50, 53] [101, 45, 55] 1234567890125 (-9) ∧
    den10 (-9) ≤ num10 1234567890125 (-9) * 2 ^ 125 ∧ num10 1234567890125 (-9) ≤ den10 (-9) * 2 ^ 127 :=
  ⟨⟨⟨49, [50, 51, 52, 53, 54, 55, 56, 57, 48, 49], rfl, by decide, by decide⟩, .inr ⟨[50, 53], rfl, by decide⟩,
    .inr ⟨101, [45], 55, [], rfl, by simp, by simp, by decide, by simp⟩⟩, ⟨by decide +kernel, by decide +kernel⟩, by decide +kernel, by decide +kernel⟩

/-- `0.9` is not correctly rounded on the AVR builds: the number below it is closer. -/
theorem C66_violated_nearest : Numeral [48] [46, 57] [] ∧ Stands [48] [46, 57] [] 9 (-1) ∧
    ¬ Rounded (atoff [48, 46, 57]) (num10 9 (-1) * 2 ^ 149 : Nat) (den10 (-1)) := by
  refine ⟨⟨⟨48, [], rfl, by decide, by simp⟩, .inr ⟨[57], rfl, by decide⟩, .inl rfl⟩, ⟨by decide +kernel, by decide +kernel⟩, ?_⟩
  intro h
  have hlt : 2 * ((num10 9 (-1) * 2 ^ 149 : Nat) : Int).natAbs < ((2 ^ 24 - 1) * 2 ^ 253 + 2 ^ 277) * den10 (-1) := by decide +kernel
  have hc := ((h.1 hlt).2 (atoff [48, 46, 57] - 1) (by decide +kernel)).1
  revert hc
  decide +kernel

end Snek.Atof
