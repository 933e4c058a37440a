import Verif.Proofs.StrfromgEngine
import Verif.Props.C64
/-!
# C71: what the AVR boards print
-/
namespace Snek.Strfromg
open Snek.Format Spec.Print Spec

theorem text8_val (D : Nat) (x : Int) (hD : D < 10 ^ 8) (hx : x.natAbs < 100) :
    ∃ n z : Nat, unsigned (text8 (pad 8 D) x) = (n, x - 7 + z) ∧ n * 10 ^ z = D := by
  have hl := pad_length 8 D
  have hd := pad_digit 8 D
  have hn := numeral_pad 8 D hD
  have ht : ∀ k, ∀ c ∈ (pad 8 D).take k, isDigit c = true := fun k c hc => hd c (List.mem_of_mem_take hc)
  have hdr : ∀ k, ∀ c ∈ (pad 8 D).drop k, isDigit c = true := fun k c hc => hd c (List.mem_of_mem_drop hc)
  unfold text8
  split
  · split
    · obtain ⟨n, z, e1, e2⟩ := point_strip ((pad 8 D).take (x.toNat + 1)) ((pad 8 D).drop (x.toNat + 1)) [] (ht _) (hdr _) (.inl rfl)
      rw [List.take_append_drop, hn] at e2
      refine ⟨n, z, ?_, e2⟩
      rw [List.append_nil] at e1
      rw [e1, List.length_drop, hl]
      congr 1
      show (0 : Int) - _ + _ = _
      omega
    · obtain ⟨n, z, e1, e2⟩ := point_strip [48] (List.replicate ((-x).toNat - 1) 48 ++ pad 8 D) [] (by decide)
        (by
          intro c hc
          rcases List.mem_append.1 hc with hc | hc
          · rw [(List.mem_replicate.1 hc).2]; decide
          · exact hd c hc) (.inl rfl)
      rw [numeral_cat, numeral_cat, numeral_zeros, hn, show numeral 10 [48] = 0 by decide, Nat.zero_mul, Nat.zero_mul, Nat.zero_add, Nat.zero_add] at e2
      refine ⟨n, z, ?_, e2⟩
      rw [List.append_nil] at e1
      rw [e1, List.length_append, List.length_replicate, hl]
      congr 1
      show (0 : Int) - _ + _ = _
      omega
  · obtain ⟨n, z, e1, e2⟩ := point_strip ((pad 8 D).take 1) ((pad 8 D).drop 1) ([101, if x < 0 then 45 else 43] ++ pad 2 x.natAbs) (ht 1) (hdr 1) (.inr ⟨_, rfl⟩)
    rw [List.take_append_drop, hn] at e2
    refine ⟨n, z, ?_, e2⟩
    rw [List.append_assoc, e1]
    have : sufExp ([101, if x < 0 then 45 else 43] ++ pad 2 x.natAbs) = x := by
      split
      · show -(numeral 10 (pad 2 x.natAbs) : Int) = x
        rw [numeral_pad 2 _ (by omega)]; omega
      · show (numeral 10 (pad 2 x.natAbs) : Int) = x
        rw [numeral_pad 2 _ (by omega)]; omega
    rw [this, List.length_drop, hl]
    rfl

theorem text8_head (D : Nat) (x : Int) : ∃ c s, text8 (pad 8 D) x = c :: s ∧ isDigit c = true := by
  obtain ⟨c, s, hc, hd⟩ := pad_cons 7 D
  unfold text8
  rw [hc]
  split
  · split
    · rw [List.take_succ_cons]
      obtain ⟨t, ht⟩ := point_cons (c := c) (s := List.take x.toNat s) (fp := strip (List.drop (x.toNat + 1) (c :: s)))
      exact ⟨c, t, ht, hd⟩
    · obtain ⟨t, ht⟩ := point_cons (c := 48) (s := []) (fp := strip (List.replicate ((-x).toNat - 1) 48 ++ c :: s))
      exact ⟨48, t, ht, by decide⟩
  · obtain ⟨t, ht⟩ := point_cons (c := c) (s := []) (fp := strip (List.drop 1 (c :: s)))
    exact ⟨c, t ++ [101, if x < 0 then 45 else 43] ++ pad 2 x.natAbs, by rw [show List.take 1 (c :: s) = [c] from rfl, ht]; rfl, hd⟩

theorem at_pad (D : Nat) (h1 : 10 ^ 7 ≤ D) (h2 : D < 10 ^ 8) : at_ (pad 8 D) 0 ≠ 48 := by
  rw [pad_front 7]
  have key : ∀ d, d < 10 → d ≠ 0 → digit false d ≠ 48 := by decide
  exact key _ (Nat.mod_lt _ (by decide)) (by omega)

theorem avr_num (u : BitVec 32) (hf : isFin u = true) (h : 714 ≤ fmag (u.toNat % 2 ^ 31)) :
    ∃ D x, avr u = some ((if fneg u then [45] else []) ++ text8 (pad 8 D) x) ∧
      10 ^ 7 ≤ D ∧ D < 10 ^ 8 ∧ -42 ≤ x ∧ x ≤ 41 ∧
      100 * (D * 10 ^ (x + 43).toNat * 2 ^ 149) ≤ 100 * (fmag (u.toNat % 2 ^ 31) * 10 ^ 50) + 71 * (10 ^ (x + 43).toNat * 2 ^ 149) ∧
      100 * (fmag (u.toNat % 2 ^ 31) * 10 ^ 50) ≤ 100 * (D * 10 ^ (x + 43).toNat * 2 ^ 149) + 71 * (10 ^ (x + 43).toNat * 2 ^ 149) ∧
      (2 ^ 23 ≤ fmag (u.toNat % 2 ^ 31) → 19600000 * (D * 10 ^ (x + 43).toNat * 2 ^ 149) ≤ 19600001 * (fmag (u.toNat % 2 ^ 31) * 10 ^ 50) ∧
        19599999 * (fmag (u.toNat % 2 ^ 31) * 10 ^ 50) ≤ 19600000 * (D * 10 ^ (x + 43).toNat * 2 ^ 149)) := by
  obtain ⟨D, x, h1, h2, h3, h4, h5, h6⟩ := engine_near u hf h
  refine ⟨D, x, ?_, h2, h3, h4, h5, h6⟩
  unfold avr
  rw [h1, Option.map_some, strfromg_text _ _ _ (pad_length 8 D) (.inr (at_pad D h2 h3)) (by omega)]

theorem mul10 (a : Nat) {b c k l : Nat} (h : k * b ≤ l * c) : k * (b * a) ≤ l * (c * a) := by
  rw [← Nat.mul_assoc, ← Nat.mul_assoc]; exact Nat.mul_le_mul_right a h

theorem loose {d M q Y U D : Nat} (hd : d = D * Y * U) (hq : q = Y * U) (hD : 10 ^ 7 ≤ D) (h1 : 100 * d ≤ 100 * M + 71 * q) (h2 : 100 * M ≤ 100 * d + 71 * q) :
    14000000 * d ≤ 14000001 * M ∧ 13999999 * M ≤ 14000000 * d := by
  have : 10 ^ 7 * q ≤ d := by rw [hd, hq, Nat.mul_assoc]; exact Nat.mul_le_mul_right _ hD
  omega

/-- With V the value of the printed decimal and v the number's, both multiplied by 2^149 * 10^60: |V - v| ≤ 5.2 * 10^-8 v for numbers of
full precision (2^-126 on), |V - v| ≤ 7.2 * 10^-8 v from 714 * 2^-149 on. -/
theorem C71_close (u : BitVec 32) (hf : isFin u = true) (hv : 714 ≤ (f32val u).natAbs) : ∃ s n e, avr u = some s ∧ decimal s = (fneg u, n, e) ∧ -60 ≤ e ∧
    14000000 * (n * 10 ^ (e + 60).toNat * 2 ^ 149) ≤ 14000001 * ((f32val u).natAbs * 10 ^ 60) ∧
    13999999 * ((f32val u).natAbs * 10 ^ 60) ≤ 14000000 * (n * 10 ^ (e + 60).toNat * 2 ^ 149) ∧
    (2 ^ 23 ≤ (f32val u).natAbs →
      19600000 * (n * 10 ^ (e + 60).toNat * 2 ^ 149) ≤ 19600001 * ((f32val u).natAbs * 10 ^ 60) ∧
      19599999 * ((f32val u).natAbs * 10 ^ 60) ≤ 19600000 * (n * 10 ^ (e + 60).toNat * 2 ^ 149)) := by
  rw [fval_eq_spec, fval_abs] at hv ⊢
  obtain ⟨D, x, h1, h2, h3, h4, h5, h6, h7, h8⟩ := avr_num u hf hv
  obtain ⟨n, z, e1, e2⟩ := text8_val D x h3 (by omega)
  refine ⟨_, n, x - 7 + z, h1, by rw [decimal_signed _ _ (text8_head _ _), e1], by omega, ?_⟩
  have hV : n * 10 ^ (x - 7 + z + 60).toNat * 2 ^ 149 = D * 10 ^ (x + 43).toNat * 2 ^ 149 * 10 ^ 10 := by
    rw [← e2, show (x - 7 + z + 60).toNat = z + ((x + 43).toNat + 10) by omega, Nat.pow_add, Nat.pow_add]
    ac_rfl
  have hM : fmag (u.toNat % 2 ^ 31) * 10 ^ 60 = fmag (u.toNat % 2 ^ 31) * 10 ^ 50 * 10 ^ 10 := by rw [Nat.mul_assoc, ← Nat.pow_add]
  rw [hV, hM]
  obtain ⟨l1, l2⟩ := loose rfl rfl h2 h6 h7
  exact ⟨mul10 _ l1, mul10 _ l2, fun hn => ⟨mul10 _ (h8 hn).1, mul10 _ (h8 hn).2⟩⟩

theorem nearer (x y : Int) (neg : Bool) (V T : Nat) (hT : 0 < T) (gap : x.natAbs < (x - y).natAbs * 16777217)
    (hu : x = if neg then -(x.natAbs : Int) else x.natAbs) (h3 : 19600000 * V ≤ 19600001 * (x.natAbs * T))
    (h4 : 19599999 * (x.natAbs * T) ≤ 19600000 * V) :
    (x * T - if neg then -(V : Int) else V).natAbs < (x * T - y * T).natAbs := by
  have a1 : ((x - y).natAbs * T : Nat) = ((x * T - y * T : Int)).natAbs := by rw [← Int.sub_mul, Int.natAbs_mul, Int.natAbs_natCast]
  have a2 : x.natAbs * T = (x * T).natAbs := by rw [Int.natAbs_mul, Int.natAbs_natCast]
  have a3 : x.natAbs * T < (x - y).natAbs * 16777217 * T := Nat.mul_lt_mul_of_pos_right gap hT
  rw [Nat.mul_right_comm, a1, a2] at a3
  rw [a2] at h3 h4
  have hxT : x * T = if neg then -((x * T).natAbs : Int) else (x * T).natAbs := by
    rw [← a2]
    conv => lhs; rw [hu]
    split
    · rw [Int.neg_mul, Int.natCast_mul]
    · rw [Int.natCast_mul]
  generalize x * (T : Int) = X at *
  generalize y * (T : Int) = Y at *
  cases hfu : neg
  · rw [hfu] at hxT
    simp only [Bool.false_eq_true, if_false] at hxT ⊢
    omega
  · rw [hfu] at hxT
    simp only [if_true] at hxT ⊢
    omega

/-- The printed decimal is nearer to the number than any other number is: it lies between the two neighbours. -/
theorem C71_between (u : BitVec 32) (hf : isFin u = true) (hv : 2 ^ 23 ≤ (f32val u).natAbs) : ∃ s n e, avr u = some s ∧ decimal s = (fneg u, n, e) ∧ -60 ≤ e ∧
    ∀ w : BitVec 32, f32val w ≠ f32val u →
      (f32val u * (10 ^ 60 : Nat) - if fneg u then -((n * 10 ^ (e + 60).toNat * 2 ^ 149 : Nat) : Int) else (n * 10 ^ (e + 60).toNat * 2 ^ 149 : Nat)).natAbs <
        (f32val u * (10 ^ 60 : Nat) - f32val w * (10 ^ 60 : Nat)).natAbs := by
  obtain ⟨s, n, e, h1, h2, h3, _, _, h4⟩ := C71_close u hf (by omega)
  obtain ⟨h4, h5⟩ := h4 hv
  refine ⟨s, n, e, h1, h2, h3, fun w hw => ?_⟩
  rw [fval_eq_spec] at hv h4 h5 hw ⊢
  rw [fval_eq_spec] at hw ⊢
  exact nearer _ _ _ _ _ (Nat.pow_pos (by decide)) (fval_gap u w (by omega) (fun h => hw h.symm)) (by rw [fval_abs]; exact fval_sign u) h4 h5

theorem pad_mul (n k j : Nat) : pad (n + j) (k * 10 ^ j) = pad n k ++ List.replicate j 48 := by
  induction j with
  | zero => simp
  | succ j ih =>
    rw [← Nat.add_assoc, pad, Nat.pow_succ, ← Nat.mul_assoc, Nat.mul_div_cancel _ (by decide), Nat.mul_mod_left, ih, List.replicate_succ', ← List.append_assoc]
    rfl

theorem lin_cancel {a b c U : Nat} (hU : 0 < U) (h : 100 * (a * U) ≤ 100 * (b * U) + 71 * (c * U)) : 100 * a ≤ 100 * b + 71 * c := by
  have : (100 * a) * U ≤ (100 * b + 71 * c) * U := by rw [Nat.add_mul, Nat.mul_assoc, Nat.mul_assoc, Nat.mul_assoc]; exact h
  exact Nat.le_of_mul_le_mul_right this hU

/-- An integer of 27 bits has a multiple of 8. -/
theorem int_mult (u : BitVec 32) (hf : isFin u = true) (k : Nat) (hk : 0 < k) (h : fmag (u.toNat % 2 ^ 31) = k * 2 ^ 149) (hb : 2 ^ 26 ≤ k) : k % 8 = 0 := by
  obtain ⟨frac, i, r, _, _, h3, h4, _, _⟩ := engine_eq u hf (by rw [h]; exact Nat.ne_of_gt (Nat.mul_pos hk (Nat.pow_pos (by decide))))
  rw [h] at h4
  generalize 8 * i + r = y at *
  have e : 2 * (k * 2 ^ 149) = k * 2 ^ 150 := by rw [show 2 ^ 150 = 2 * 2 ^ 149 from rfl]; ac_rfl
  rw [e] at h4
  have hy : 153 ≤ y := by
    rcases Nat.lt_or_ge y 153 with hy | hy
    · exfalso
      have a1 : 2 ^ y ≤ 2 ^ 152 := Nat.pow_le_pow_right (by decide) (by omega)
      have a2 : frac * 2 ^ y < 2 ^ 24 * 2 ^ 152 := Nat.lt_of_le_of_lt (Nat.mul_le_mul_left _ a1) (Nat.mul_lt_mul_of_pos_right h3 (Nat.pow_pos (by decide)))
      have a3 : 2 ^ 26 * 2 ^ 150 ≤ k * 2 ^ 150 := Nat.mul_le_mul_right _ hb
      rw [← h4] at a2
      exact absurd (Nat.lt_of_le_of_lt a3 a2) (by decide)
    · exact hy
  obtain ⟨t, rfl⟩ : ∃ t, y = t + 153 := ⟨y - 153, by omega⟩
  have : k * 2 ^ 150 = frac * 2 ^ t * 8 * 2 ^ 150 := by
    rw [h4, Nat.pow_add, show 2 ^ 153 = 8 * 2 ^ 150 from rfl]; ac_rfl
  have := Nat.eq_of_mul_eq_mul_right (Nat.pow_pos (by decide)) this
  rw [this]; exact Nat.mul_mod_left _ _

/-- Integers below 10^8 print as integers: digits only, no zero at the front, the right value. -/
theorem C71_integer (u : BitVec 32) (hf : isFin u = true) (k : Nat) (hk : 1 ≤ k) (hk' : k < 10 ^ 8) (hv : (f32val u).natAbs = k * 2 ^ 149) :
    ∃ s, avr u = some ((if fneg u then [45] else []) ++ s) ∧ (∀ c ∈ s, isDigit c = true) ∧ numeral 10 s = k ∧ s.head? ≠ some 48 := by
  rw [fval_eq_spec, fval_abs] at hv
  have hm : 714 ≤ fmag (u.toNat % 2 ^ 31) := by
    rw [hv]; exact Nat.le_trans (show 714 ≤ 1 * 2 ^ 149 by decide) (Nat.mul_le_mul_right _ hk)
  obtain ⟨D, x, h1, h2, h3, h4, h5, h6, h7, _⟩ := avr_num u hf hm
  have h8 := int_mult u hf k hk hv
  rw [hv] at h6 h7
  rw [Nat.mul_right_comm k] at h6 h7
  have c1 := lin_cancel (Nat.pow_pos (by decide)) h6
  have c2 := lin_cancel (Nat.pow_pos (by decide)) h7
  clear h6 h7 hv hm
  have key : 0 ≤ x ∧ x ≤ 7 ∧ D = k * 10 ^ (7 - x).toNat := by
    by_cases hx : x ≤ 7
    · have hT : 10 ^ 50 = 10 ^ (7 - x).toNat * 10 ^ (x + 43).toNat := by rw [← Nat.pow_add]; congr 1; omega
      rw [hT, ← Nat.mul_assoc k] at c1 c2
      have c1 := lin_cancel (a := D) (b := k * 10 ^ (7 - x).toNat) (c := 1) (U := 10 ^ (x + 43).toNat) (Nat.pow_pos (by decide)) (by rw [Nat.one_mul]; exact c1)
      have c2 := lin_cancel (a := k * 10 ^ (7 - x).toNat) (b := D) (c := 1) (U := 10 ^ (x + 43).toNat) (Nat.pow_pos (by decide)) (by rw [Nat.one_mul]; exact c2)
      have hD : D = k * 10 ^ (7 - x).toNat := by omega
      refine ⟨?_, hx, hD⟩
      by_cases hn : 0 ≤ x
      · exact hn
      · exfalso
        have : 10 ^ 8 ≤ 10 ^ (7 - x).toNat := Nat.pow_le_pow_right (by decide) (by omega)
        have := Nat.mul_le_mul hk this
        omega
    · exfalso
      have hY : 10 ^ (x + 43).toNat = 10 ^ (x - 7).toNat * 10 ^ 50 := by rw [← Nat.pow_add]; congr 1; omega
      rw [hY, ← Nat.mul_assoc D] at c1
      have c1 := lin_cancel (Nat.pow_pos (by decide)) c1
      have hZ : 10 ≤ 10 ^ (x - 7).toNat := Nat.pow_le_pow_right (n := 10) (i := 1) (by decide) (by omega)
      have hD := Nat.mul_le_mul_right (10 ^ (x - 7).toNat) h2
      generalize 10 ^ (x - 7).toNat = Z at *
      generalize D * Z = W at *
      omega
  obtain ⟨k1, k2, rfl⟩ := key
  refine ⟨pad (x.toNat + 1) k, ?_, pad_digit _ _, numeral_pad _ _ ?_, ?_⟩
  · rw [h1]
    congr 2
    unfold text8
    rw [if_pos ⟨by omega, k2⟩, if_pos k1]
    have := pad_mul (x.toNat + 1) k (7 - x).toNat
    rw [show x.toNat + 1 + (7 - x).toNat = 8 by omega] at this
    have hl := pad_length (x.toNat + 1) k
    rw [this, List.take_append_of_le_length (by omega), List.drop_append_of_le_length (by omega)]
    rw [List.take_of_length_le (by omega), List.drop_of_length_le (by omega)]
    rw [show strip ([] ++ List.replicate (7 - x).toNat 48) = [] from strip_append_zeros [] _ (by simp)]
    rfl
  · have e : (10 : Nat) ^ 8 = 10 ^ (x.toNat + 1) * 10 ^ (7 - x).toNat := by rw [← Nat.pow_add]; congr 1; omega
    rw [e] at h3
    exact Nat.lt_of_mul_lt_mul_right h3
  · have e : (10 : Nat) ^ 7 = 10 ^ x.toNat * 10 ^ (7 - x).toNat := by rw [← Nat.pow_add]; congr 1; omega
    have e' : (10 : Nat) ^ 8 = 10 ^ (x.toNat + 1) * 10 ^ (7 - x).toNat := by rw [← Nat.pow_add]; congr 1; omega
    rw [e] at h2
    rw [e'] at h3
    have g1 : 10 ^ x.toNat ≤ k := Nat.le_of_mul_le_mul_right h2 (Nat.pow_pos (by decide))
    have g2 : k < 10 ^ (x.toNat + 1) := Nat.lt_of_mul_lt_mul_right h3
    rw [pad_front]
    have key : ∀ d, d < 10 → d ≠ 0 → digit false d ≠ 48 := by decide
    have hd0 := Nat.div_pos g1 (Nat.pow_pos (by decide))
    have hd1 : k / 10 ^ x.toNat < 10 := by
      rw [Nat.div_lt_iff_lt_mul (Nat.pow_pos (by decide)), Nat.mul_comm]; rw [Nat.pow_succ] at g2; exact g2
    simp only [List.head?_cons, ne_eq, Option.some.injEq]
    rw [Nat.mod_eq_of_lt hd1]
    exact key _ hd1 (by omega)

/-- Zeros, infinities and NaN. -/
theorem C71_special (u : BitVec 32) :
    (f32val u = 0 → isFin u = true → avr u = some ((if fneg u then [45] else []) ++ [48])) ∧
    (isInfF u = true → avr u = some ((if fneg u then [45] else []) ++ [105, 110, 102])) ∧
    (isNanF u = true → avr u = some ((if fneg u then [45] else []) ++ [110, 97, 110])) := by
  have hu := u.isLt
  refine ⟨fun hz _ => ?_, fun h => ?_, fun h => ?_⟩
  · rw [fval_eq_spec] at hz
    have hab := fval_abs u
    rw [hz] at hab
    have h0 : u.toNat % 2 ^ 31 = 0 := fmag_inj _ _ (hab.symm.trans (by decide))
    unfold avr engine
    simp only []
    rw [if_pos ⟨by omega, by omega⟩, Option.map_some]
    rw [strfromg_text _ _ _ (by simp) (.inl (by decide)) (by decide)]
    have : text8 (List.replicate 8 48) 0 = [48] := by decide
    rw [this]
    simp [fneg]
  · unfold isInfF at h
    have h := of_decide_eq_true h
    unfold avr engine
    simp only []
    rw [if_neg (by omega), if_pos (by omega), Option.map_some]
    unfold strfromg
    have e : u.toNat % 2 ^ 23 = 0 := by omega
    simp [e, fneg]
  · unfold isNanF at h
    have h := of_decide_eq_true h
    unfold avr engine
    simp only []
    rw [if_neg (by omega), if_pos (by omega), Option.map_some]
    unfold strfromg
    have e : u.toNat % 2 ^ 23 ≠ 0 := by omega
    simp [e, fneg]

theorem strip_len (l : List UInt8) : (strip l).length ≤ l.length := by
  have := congrArg List.length (strip_zeros l)
  rw [List.length_append] at this; omega

theorem point_len (a b : List UInt8) : (point a b).length ≤ a.length + b.length + 1 := by
  unfold point
  split
  · omega
  · rw [List.length_append, List.length_append, List.length_singleton]; omega

theorem text8_len (ds : List UInt8) (x : Int) (hl : ds.length = 8) : (text8 ds x).length ≤ 13 := by
  unfold text8
  split
  · split
    · have h1 := point_len (ds.take (x.toNat + 1)) (strip (ds.drop (x.toNat + 1)))
      have h2 := strip_len (ds.drop (x.toNat + 1))
      rw [List.length_drop] at h2
      rw [List.length_take] at h1
      omega
    · have h1 := point_len [48] (strip (List.replicate ((-x).toNat - 1) 48 ++ ds))
      have h2 := strip_len (List.replicate ((-x).toNat - 1) 48 ++ ds)
      rw [List.length_append, List.length_replicate] at h2
      simp only [List.length_singleton] at h1
      omega
  · have h1 := point_len (ds.take 1) (strip (ds.drop 1))
    have h2 := strip_len (ds.drop 1)
    rw [List.length_drop] at h2
    rw [List.length_take] at h1
    simp only [List.length_append, List.length_cons, List.length_nil, pad_length]
    omega

theorem small_len : ∀ m, m < 714 → ∀ s : Bool, ∀ t ∈ avr (BitVec.ofNat 32 (m + if s then 2 ^ 31 else 0)), t.length ≤ 14 := by
  decide +kernel

/-- Nothing that is printed has more than 14 characters (the buffers have 32, and the function does not know their size). -/
theorem C71_fits (u : BitVec 32) (t : List UInt8) (h : avr u = some t) : t.length ≤ 14 := by
  have hu := u.isLt
  have sg : ∀ (b : Bool) (s : List UInt8), s.length ≤ 13 → ((if b then [45] else []) ++ s).length ≤ 14 := by
    intro b s hs; cases b <;> simp <;> omega
  cases hf : isFin u with
  | true =>
    rcases Nat.lt_or_ge (fmag (u.toNat % 2 ^ 31)) 714 with hm | hm
    · have hb : u.toNat % 2 ^ 31 < 714 := by
        rcases Nat.lt_or_ge (u.toNat % 2 ^ 31) 714 with h | h
        · exact h
        · exfalso
          have : 714 ≤ fmag (u.toNat % 2 ^ 31) := by
            unfold fmag
            split
            · omega
            · have := Nat.mul_le_mul (Nat.le_add_right (2 ^ 23) (u.toNat % 2 ^ 31 % 2 ^ 23)) (Nat.one_le_two_pow (n := u.toNat % 2 ^ 31 / 2 ^ 23 - 1))
              omega
          omega
      refine small_len _ hb (decide (2 ^ 31 ≤ u.toNat)) t ?_
      have e : BitVec.ofNat 32 (u.toNat % 2 ^ 31 + if decide (2 ^ 31 ≤ u.toNat) = true then 2 ^ 31 else 0) = u := by
        apply BitVec.eq_of_toNat_eq
        rw [BitVec.toNat_ofNat]
        simp only [decide_eq_true_eq]
        split <;> omega
      rw [e]; exact h
    · obtain ⟨D, x, h1, _⟩ := avr_num u hf hm
      rw [h] at h1
      rw [Option.some.inj h1]
      exact sg _ _ (text8_len _ _ (pad_length 8 D))
  | false =>
    have hcase : isInfF u = true ∨ isNanF u = true := by
      unfold isFin at hf; unfold isInfF isNanF
      simp only [decide_eq_true_eq, decide_eq_false_iff_not] at *
      omega
    rcases hcase with hc | hc
    · have := (C71_special u).2.1 hc
      rw [h] at this
      rw [Option.some.inj this]; exact sg _ _ (by decide)
    · have := (C71_special u).2.2 hc
      rw [h] at this
      rw [Option.some.inj this]; exact sg _ _ (by decide)

/-- 3.1415927, full precision. -/
example : isFin 0x40490fdb#32 = true ∧ 2 ^ 23 ≤ (f32val 0x40490fdb#32).natAbs ∧ avr 0x40490fdb#32 = some [51, 46, 49, 52, 49, 53, 57, 50, 55] := by decide +kernel

/-- -16777216 -/
example : isFin 0xcb800000#32 = true ∧ (f32val 0xcb800000#32).natAbs = 16777216 * 2 ^ 149 ∧
    avr 0xcb800000#32 = some [45, 49, 54, 55, 55, 55, 50, 49, 54] := by decide +kernel

/-- 2e-42 -/
example : 714 ≤ (f32val 1427#32).natAbs ∧ (f32val 1427#32).natAbs < 2 ^ 23 ∧ (avr 1427#32).isSome = true := by decide +kernel

/-- Eight digits are not enough to tell all numbers apart: 1000.00006 and 1000.00012 are both printed as 1000.0001. -/
theorem C71_violated_distinct : avr 0x447a0001#32 = some [49, 48, 48, 48, 46, 48, 48, 48, 49] ∧ avr 0x447a0002#32 = avr 0x447a0001#32 := by decide +kernel

theorem tiny_none : ∀ m, m < 72 → 0 < m → ∀ s : Bool, avr (BitVec.ofNat 32 (m + if s then 2 ^ 31 else 0)) = none := by decide +kernel

/-- Below 72 * 2^-149 (10^-43) the C version of the engine divides by 0. -/
theorem C71_violated_tiny (u : BitVec 32) (h0 : f32val u ≠ 0) (h : (f32val u).natAbs < 72) : avr u = none := by
  have hu := u.isLt
  rw [fval_eq_spec] at h0 h
  have hab := fval_abs u
  rw [hab] at h
  have hb : u.toNat % 2 ^ 31 < 72 ∧ 0 < u.toNat % 2 ^ 31 := by
    unfold fmag at h hab
    split at h
    · rw [if_pos (by assumption)] at hab
      omega
    · exfalso
      have := Nat.mul_le_mul (Nat.le_add_right (2 ^ 23) (u.toNat % 2 ^ 31 % 2 ^ 23)) (Nat.one_le_two_pow (n := u.toNat % 2 ^ 31 / 2 ^ 23 - 1))
      omega
  have e : BitVec.ofNat 32 (u.toNat % 2 ^ 31 + if decide (2 ^ 31 ≤ u.toNat) = true then 2 ^ 31 else 0) = u := by
    apply BitVec.eq_of_toNat_eq
    rw [BitVec.toNat_ofNat]
    simp only [decide_eq_true_eq]
    split <;> omega
  have := tiny_none _ hb.1 hb.2 (decide (2 ^ 31 ≤ u.toNat))
  rw [e] at this; exact this

end Snek.Strfromg
