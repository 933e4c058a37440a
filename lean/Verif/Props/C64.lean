import Verif.Proofs.G9
import Verif.Props.C57
/-!
# C64: numbers print so that they can be told apart and read back
-/
namespace Snek.Format
open Spec.Print Spec

theorem pad_cons (n D : Nat) : ∃ c s, pad (n + 1) D = c :: s ∧ isDigit c = true := by
  cases h : pad (n + 1) D with
  | nil => have := pad_length (n + 1) D; rw [h] at this; simp at this
  | cons c s => exact ⟨c, s, rfl, pad_digit (n + 1) D c (by rw [h]; simp)⟩

theorem point_cons {c : UInt8} {s fp : List UInt8} : ∃ t, point (c :: s) fp = c :: t := by
  unfold point; split
  · exact ⟨_, rfl⟩
  · exact ⟨_, rfl⟩

theorem gText_head (D Y : Nat) : ∃ c s, gText D Y = c :: s ∧ isDigit c = true := by
  obtain ⟨c, s, hc, hd⟩ := pad_cons 8 D
  unfold gText
  simp only [hc]
  split
  · obtain ⟨t, ht⟩ := point_cons (c := c) (s := []) (fp := strip (List.drop 1 (c :: s)))
    exact ⟨c, t ++ [101, 45] ++ pad 2 (45 - Y), by rw [show List.take 1 (c :: s) = [c] from rfl, ht]; rfl, hd⟩
  · split
    · obtain ⟨t, ht⟩ := point_cons (c := c) (s := []) (fp := strip (List.drop 1 (c :: s)))
      exact ⟨c, t ++ [101, 43] ++ pad 2 (Y - 45), by rw [show List.take 1 (c :: s) = [c] from rfl, ht]; rfl, hd⟩
    · split
      · obtain ⟨k, hk⟩ : ∃ k, Y - 44 = k + 1 := ⟨Y - 45, by omega⟩
        rw [hk, List.take_succ_cons]
        obtain ⟨t, ht⟩ := point_cons (c := c) (s := List.take k s) (fp := strip (List.drop (k + 1) (c :: s)))
        exact ⟨c, t, ht, hd⟩
      · obtain ⟨t, ht⟩ := point_cons (c := 48) (s := []) (fp := strip (List.replicate (44 - Y) 48 ++ c :: s))
        exact ⟨48, t, ht, by decide⟩

/-- The characters of numbers. -/
def isNumCh (c : UInt8) : Bool := isDigit c || c = 46 || c = 101 || c = 43 || c = 45

theorem gText_chars (D Y : Nat) : ∀ c ∈ gText D Y, isNumCh c = true := by
  have hdig : ∀ c, isDigit c = true → isNumCh c = true := fun c h => by unfold isNumCh; rw [h]; rfl
  have hpt : ∀ ip F : List UInt8, (∀ c ∈ ip, isDigit c = true) → (∀ c ∈ F, isDigit c = true) → ∀ c ∈ point ip (strip F), isNumCh c = true := by
    intro ip F h1 h2 c hc
    unfold point at hc
    split at hc
    · exact hdig c (h1 c hc)
    · rcases List.mem_append.1 hc with hc | hc
      · rcases List.mem_append.1 hc with hc | hc
        · exact hdig c (h1 c hc)
        · rw [List.mem_singleton] at hc; rw [hc]; decide
      · exact hdig c (strip_digit F h2 c hc)
  have ht : ∀ k, ∀ c ∈ (pad 9 D).take k, isDigit c = true := fun k c hc => pad_digit 9 D c (List.mem_of_mem_take hc)
  have hdr : ∀ k, ∀ c ∈ (pad 9 D).drop k, isDigit c = true := fun k c hc => pad_digit 9 D c (List.mem_of_mem_drop hc)
  intro c hc
  unfold gText at hc
  split at hc
  · rcases List.mem_append.1 hc with hc | hc
    · rcases List.mem_append.1 hc with hc | hc
      · exact hpt _ _ (ht 1) (hdr 1) c hc
      · simp only [List.mem_cons, List.not_mem_nil, or_false] at hc
        rcases hc with rfl | rfl <;> decide
    · exact hdig c (pad_digit 2 _ c hc)
  · split at hc
    · rcases List.mem_append.1 hc with hc | hc
      · rcases List.mem_append.1 hc with hc | hc
        · exact hpt _ _ (ht 1) (hdr 1) c hc
        · simp only [List.mem_cons, List.not_mem_nil, or_false] at hc
          rcases hc with rfl | rfl <;> decide
      · exact hdig c (pad_digit 2 _ c hc)
    · split at hc
      · exact hpt _ _ (ht _) (hdr _) c hc
      · refine hpt _ _ (by decide) ?_ c hc
        intro c hc
        rcases List.mem_append.1 hc with hc | hc
        · rw [(List.mem_replicate.1 hc).2]; decide
        · exact pad_digit 9 D c hc

theorem decimal_signed (neg : Bool) (s : List UInt8) (h : ∃ c t, s = c :: t ∧ isDigit c = true) :
    decimal ((if neg then [45] else []) ++ s) = (neg, unsigned s) := by
  obtain ⟨c, t, rfl, hc⟩ := h
  cases neg with
  | true => rfl
  | false =>
    show decimal (c :: t) = _
    unfold decimal
    split
    · rename_i h
      rw [(List.cons.inj h).1] at hc
      exact absurd hc (by decide)
    · rfl

theorem fin_cases {u : BitVec 32} (hf : isFin u = true) : isNanF u = false ∧ isInfF u = false := by
  unfold isFin at hf
  unfold isNanF isInfF
  simp only [decide_eq_true_eq] at hf
  simp only [decide_eq_false_iff_not]
  omega

theorem g9_fin (u : BitVec 32) (hf : isFin u = true) (hz : fmag (u.toNat % 2 ^ 31) ≠ 0) :
    g9 u = (if fneg u then [45] else []) ++ gText (nine (fmag (u.toNat % 2 ^ 31))).1 (nine (fmag (u.toNat % 2 ^ 31))).2 := by
  obtain ⟨h1, h2⟩ := fin_cases hf
  unfold g9
  rw [h1, h2]
  simp only [Bool.false_eq_true, if_false, if_neg hz]

theorem close_lin (W M : Nat) (h1 : 2 * W ≤ 2 * (M * 10 ^ 8) + M) (h2 : 2 * (M * 10 ^ 8) ≤ 2 * W + M) :
    200000000 * (W * 10 ^ 7) ≤ 200000001 * (M * 10 ^ 15) ∧ 199999999 * (M * 10 ^ 15) ≤ 200000000 * (W * 10 ^ 7) := by
  omega

/-- Half a unit of the ninth digit, scaled. -/
theorem close_arith (U D Y z n m : Nat) (hn : n * 10 ^ z = D) (e : Int) (he : e = (Y : Int) - 53 + z)
    (h1 : 2 * (D * (U * 10 ^ Y)) ≤ 2 * (m * 10 ^ 45 * 10 ^ 8) + m * 10 ^ 45)
    (h2 : 2 * (m * 10 ^ 45 * 10 ^ 8) ≤ 2 * (D * (U * 10 ^ Y)) + m * 10 ^ 45) :
    200000000 * (n * 10 ^ (e + 60).toNat * U) ≤ 200000001 * (m * 10 ^ 60) ∧
    199999999 * (m * 10 ^ 60) ≤ 200000000 * (n * 10 ^ (e + 60).toNat * U) := by
  have ee : (e + 60).toNat = z + (Y + 7) := by omega
  have hV : n * 10 ^ (e + 60).toNat * U = D * (U * 10 ^ Y) * 10 ^ 7 := by
    rw [ee, Nat.pow_add, ← Nat.mul_assoc n, hn, Nat.pow_add, Nat.mul_assoc, Nat.mul_assoc D, Nat.mul_assoc U, Nat.mul_comm U]
  rw [hV]
  have e60 : m * 10 ^ 60 = m * 10 ^ 45 * 10 ^ 15 := by rw [Nat.mul_assoc]
  rw [e60]
  exact close_lin _ _ h1 h2

/-- The printed decimal is within half of 10^-8 of the number, relatively: with V the decimal's value and v the number's, both multiplied
by 2^149 * 10^60, |V - v| * 2 * 10^8 ≤ v. -/
theorem C64_close (u : BitVec 32) (hf : isFin u = true) (hz : f32val u ≠ 0) : ∃ n e, decimal (g9 u) = (fneg u, n, e) ∧ -60 ≤ e ∧
    200000000 * (n * 10 ^ (e + 60).toNat * 2 ^ 149) ≤ 200000001 * ((f32val u).natAbs * 10 ^ 60) ∧
    199999999 * ((f32val u).natAbs * 10 ^ 60) ≤ 200000000 * (n * 10 ^ (e + 60).toNat * 2 ^ 149) := by
  rw [fval_eq_spec] at hz ⊢
  have hab := fval_abs u
  have hm : fmag (u.toNat % 2 ^ 31) ≠ 0 := by rw [← hab]; omega
  have hlt : fmag (u.toNat % 2 ^ 31) < 2 ^ 277 := fmag_bound _ (by unfold isFin at hf; exact of_decide_eq_true hf)
  rw [hab, g9_fin u hf hm, decimal_signed _ _ (gText_head _ _)]
  generalize fmag (u.toNat % 2 ^ 31) = m at *
  obtain ⟨s1, s2, s3, s4, _⟩ := nine_spec m (Nat.pos_of_ne_zero hm)
  obtain ⟨n, z, e1, e2⟩ := gText_val (nine m).1 (nine m).2 s2 (nine_exp m (Nat.pos_of_ne_zero hm) hlt)
  refine ⟨n, ((nine m).2 : Int) - 53 + z, by rw [e1], by omega, ?_⟩
  exact close_arith (2 ^ 149) _ _ z n m e2 _ rfl s3 s4

/-- Zeros print as "0" and "-0". -/
theorem C64_zero (u : BitVec 32) (hf : isFin u = true) (hz : f32val u = 0) : g9 u = if fneg u then [45, 48] else [48] := by
  rw [fval_eq_spec] at hz
  have hab := fval_abs u
  rw [hz] at hab
  obtain ⟨h1, h2⟩ := fin_cases hf
  unfold g9
  rw [h1, h2, ← hab]
  simp only [Bool.false_eq_true, if_false, Int.natAbs_zero, if_true]
  split <;> rfl

theorem fval_sign (u : BitVec 32) : fval u = if fneg u then -(fmag (u.toNat % 2 ^ 31) : Int) else fmag (u.toNat % 2 ^ 31) := by
  have hu := u.isLt
  unfold fval
  split
  · rename_i h
    have : 2 ^ 31 ≤ u.toNat := of_decide_eq_true h
    rw [show u.toNat % 2 ^ 31 = u.toNat - 2 ^ 31 by omega]
  · rename_i h
    have : ¬ (2 ^ 31 ≤ u.toNat) := fun h' => h (decide_eq_true h')
    rw [Nat.mod_eq_of_lt (by omega)]

/-- Different numbers are far apart. -/
theorem fval_gap (u w : BitVec 32) (hz : fval u ≠ 0) (h : fval u ≠ fval w) : (fval u).natAbs < (fval u - fval w).natAbs * 16777217 := by
  have hu := fval_sign u
  have hw := fval_sign w
  have h1 := fval_abs u
  by_cases hs : fneg u = fneg w
  · have hne : fmag (u.toNat % 2 ^ 31) ≠ fmag (w.toNat % 2 ^ 31) := by
      intro e; rw [e, hs, ← hw] at hu; exact h hu
    have := fmag_gap _ _ hne
    rw [h1, hu, hw, ← hs]
    generalize fmag (u.toNat % 2 ^ 31) = a at *
    generalize fmag (w.toNat % 2 ^ 31) = b at *
    have e : ((if fneg u = true then -(a : Int) else a) - if fneg u = true then -(b : Int) else b).natAbs = ((a : Int) - b).natAbs := by
      split <;> omega
    rw [e]; exact this
  · have hle : (fval u).natAbs ≤ (fval u - fval w).natAbs := by
      rw [hu, hw]
      generalize fmag (u.toNat % 2 ^ 31) = a at *
      generalize fmag (w.toNat % 2 ^ 31) = b at *
      cases hfu : fneg u <;> cases hfw : fneg w <;> rw [hfu, hfw] at hs <;> first | exact absurd rfl hs | (simp only [Bool.false_eq_true, if_false, if_true]; omega)
    have hpos : 0 < (fval u).natAbs := by omega
    have h2 : (fval u - fval w).natAbs * 2 ≤ (fval u - fval w).natAbs * 16777217 := Nat.mul_le_mul_left _ (by decide)
    exact Nat.lt_of_lt_of_le (by omega) h2

theorem fval_inj (u w : BitVec 32) (hz : fval u ≠ 0) (h : fval u = fval w) : u = w := by
  have hu := fval_sign u
  have hw := fval_sign w
  have lu := u.isLt
  have lw := w.isLt
  have hs : fneg u = fneg w ∧ fmag (u.toNat % 2 ^ 31) = fmag (w.toNat % 2 ^ 31) := by
    rw [hu, hw] at h
    rw [hu] at hz
    generalize fmag (u.toNat % 2 ^ 31) = a at *
    generalize fmag (w.toNat % 2 ^ 31) = b at *
    cases hfu : fneg u <;> cases hfw : fneg w <;> rw [hfu, hfw] at h <;> rw [hfu] at hz <;> simp only [Bool.false_eq_true, if_false, if_true] at h hz <;> first | exact ⟨rfl, by omega⟩ | (exfalso; omega)
  have hm := fmag_inj _ _ hs.2
  have h1 := hs.1
  unfold fneg at h1
  apply BitVec.eq_of_toNat_eq
  have : (2 ^ 31 ≤ u.toNat ↔ 2 ^ 31 ≤ w.toNat) := by
    constructor
    · intro h; rw [decide_eq_true h] at h1; exact of_decide_eq_true h1.symm
    · intro h; rw [decide_eq_true h] at h1; exact of_decide_eq_true h1
  omega

/-- Nothing else is as close. -/
theorem round_arith (x y : Int) (neg : Bool) (V T : Nat) (hT : 0 < T) (gap : x.natAbs < (x - y).natAbs * 16777217)
    (hu : x = if neg then -(x.natAbs : Int) else x.natAbs) (h3 : 200000000 * V ≤ 200000001 * (x.natAbs * T))
    (h4 : 199999999 * (x.natAbs * T) ≤ 200000000 * V)
    (hw : (y * T - if neg then -(V : Int) else V).natAbs ≤ (x * T - if neg then -(V : Int) else V).natAbs) : False := by
  -- in multiples of T
  have a1 : ((x - y).natAbs * T : Nat) = ((x * T - y * T : Int)).natAbs := by rw [← Int.sub_mul, Int.natAbs_mul, Int.natAbs_natCast]
  have a2 : x.natAbs * T = (x * T).natAbs := by rw [Int.natAbs_mul, Int.natAbs_natCast]
  have a3 : x.natAbs * T < (x - y).natAbs * 16777217 * T := Nat.mul_lt_mul_of_pos_right gap hT
  rw [Nat.mul_right_comm, a1, a2] at a3
  rw [a2] at h3 h4
  have hxT : x * T = if neg then -((x * T).natAbs : Int) else (x * T).natAbs := by
    rw [← a2]
    conv => lhs; rw [hu]
    split
    · rw [Int.neg_mul, Int.natCast_mul]
    · rw [Int.natCast_mul]
  generalize x * (T : Int) = X at *
  generalize y * (T : Int) = Y at *
  cases hfu : neg
  · rw [hfu] at hw hxT
    simp only [Bool.false_eq_true, if_false] at hw hxT
    omega
  · rw [hfu] at hw hxT
    simp only [if_true] at hw hxT
    omega

theorem fval_max (u : BitVec 32) (hf : isFin u = true) : (fval u).natAbs ≤ 16777215 * 2 ^ 253 := by
  rw [fval_abs]
  have h : u.toNat % 2 ^ 31 < 0x7f800000 := by unfold isFin at hf; exact of_decide_eq_true hf
  have hm : fmag 0x7f7fffff = 16777215 * 2 ^ 253 := by decide +kernel
  rw [← hm]
  by_cases hc : u.toNat % 2 ^ 31 = 0x7f7fffff
  · rw [hc]; exact Nat.le_refl _
  · have hl : u.toNat % 2 ^ 31 < 0x7f7fffff := Nat.lt_of_le_of_ne (Nat.le_of_lt_succ h) hc
    obtain ⟨g, hg, _, h0⟩ := fmag_succ (u.toNat % 2 ^ 31)
    refine Nat.le_trans ?_ (fmag_lt _ _ hl)
    rw [hg]; exact Nat.le_add_right _ _

theorem below_half (V x T K : Nat) (hT : 0 < T) (hK : 0 < K) (h : 200000000 * V ≤ 200000001 * (x * T)) (hx : x ≤ 16777215 * K) :
    2 * V < (16777215 * K + 16777216 * K) * T := by
  have h1 : x * T ≤ 16777215 * K * T := Nat.mul_le_mul_right T hx
  have h2 : (16777215 * K + 16777216 * K) * T = 33554431 * (K * T) := by rw [← Nat.add_mul, Nat.mul_assoc]
  have h3 : 0 < K * T := Nat.mul_pos hK hT
  rw [h2]
  rw [Nat.mul_assoc] at h1
  generalize K * T = Q at *
  generalize x * T = R at *
  omega

/-- What a correctly rounding reader makes of the printed form is the number that was printed. -/
theorem C64_roundtrip (u : BitVec 32) (hf : isFin u = true) (hz : f32val u ≠ 0) : ∃ n e, decimal (g9 u) = (fneg u, n, e) ∧ -60 ≤ e ∧
    ∀ w : BitVec 32, Rounded w (if fneg u then -((n * 10 ^ (e + 60).toNat * 2 ^ 149 : Nat) : Int) else (n * 10 ^ (e + 60).toNat * 2 ^ 149 : Nat)) (10 ^ 60) → w = u := by
  obtain ⟨n, e, h1, h2, h3, h4⟩ := C64_close u hf hz
  refine ⟨n, e, h1, h2, fun w hw => ?_⟩
  rw [fval_eq_spec] at hz h3 h4
  have hab : ∀ V : Nat, (if fneg u then -(V : Int) else V).natAbs = V := fun V => by split <;> omega
  have hw := hw.1 (by
    rw [hab]
    have := below_half _ _ (10 ^ 60) (2 ^ 253) (Nat.pow_pos (by decide)) (Nat.pow_pos (by decide)) h3 (fval_max u hf)
    rw [show ((2 ^ 24 - 1) * 2 ^ 253 + 2 ^ 277 : Nat) = 16777215 * 2 ^ 253 + 16777216 * 2 ^ 253 by decide +kernel]
    exact this)
  have hw := (hw.2 u (by unfold isFin at hf; exact of_decide_eq_true hf)).1
  rw [fval_eq_spec, fval_eq_spec] at hw
  by_cases he : fval u = fval w
  · exact (fval_inj u w hz he).symm
  · exact (round_arith _ _ _ _ _ (Nat.pow_pos (by decide)) (fval_gap u w hz he) (by rw [fval_abs]; exact fval_sign u) h3 h4 hw).elim

/-- Numbers that print alike are the same number. -/
theorem fin_inj (u v : BitVec 32) (hu : isFin u = true) (hv : isFin v = true) (zu : f32val u ≠ 0) (zv : f32val v ≠ 0) (e : g9 u = g9 v) : u = v := by
  obtain ⟨n, k, a1, a2, a3, a4⟩ := C64_close u hu zu
  obtain ⟨n', k', b1, b2, b3, b4⟩ := C64_close v hv zv
  rw [e, b1] at a1
  obtain ⟨hs, hn⟩ := Prod.mk.inj a1
  obtain ⟨rfl, rfl⟩ := Prod.mk.inj hn
  rw [fval_eq_spec] at zu zv a3 a4 b3 b4
  by_cases he : fval u = fval v
  · exact fval_inj u v zu he
  · exfalso
    have su : fval u = if fneg u then -((fval u).natAbs : Int) else (fval u).natAbs := by rw [fval_abs]; exact fval_sign u
    have sv : fval v = if fneg v then -((fval v).natAbs : Int) else (fval v).natAbs := by rw [fval_abs]; exact fval_sign v
    rcases Nat.le_total (fval v * (10 ^ 60 : Nat) - if fneg u then -((n' * 10 ^ (k' + 60).toNat * 2 ^ 149 : Nat) : Int) else ((n' * 10 ^ (k' + 60).toNat * 2 ^ 149 : Nat) : Int)).natAbs
      (fval u * (10 ^ 60 : Nat) - if fneg u then -((n' * 10 ^ (k' + 60).toNat * 2 ^ 149 : Nat) : Int) else ((n' * 10 ^ (k' + 60).toNat * 2 ^ 149 : Nat) : Int)).natAbs with hl | hl
    · exact round_arith _ _ _ _ _ (Nat.pow_pos (by decide)) (fval_gap u v zu he) su a3 a4 hl
    · rw [← hs] at hl
      exact round_arith _ _ _ _ _ (Nat.pow_pos (by decide)) (fval_gap v u zv (fun h => he h.symm)) sv b3 b4 hl

/-- `%.9g` without the sign. -/
def body (u : BitVec 32) : List UInt8 :=
  if isNanF u then [110, 97, 110]
  else if isInfF u then [105, 110, 102]
  else if fmag (u.toNat % 2 ^ 31) = 0 then [48] else gText (nine (fmag (u.toNat % 2 ^ 31))).1 (nine (fmag (u.toNat % 2 ^ 31))).2

theorem g9_body (u : BitVec 32) : g9 u = (if fneg u then [45] else []) ++ body u := rfl

theorem body_head (u : BitVec 32) : ∃ c s, body u = c :: s ∧ (if isFin u then isDigit c = true else if isNanF u then c = 110 else c = 105) := by
  unfold body
  by_cases h1 : isNanF u = true
  · have hf : isFin u = false := by
      cases h : isFin u with
      | false => rfl
      | true => have := (fin_cases h).1; rw [h1] at this; cases this
    rw [if_pos h1]
    exact ⟨_, _, rfl, by simp [hf, h1]⟩
  · rw [if_neg h1]
    by_cases h2 : isInfF u = true
    · have hf : isFin u = false := by
        cases h : isFin u with
        | false => rfl
        | true => have := (fin_cases h).2; rw [h2] at this; cases this
      rw [if_pos h2]
      exact ⟨_, _, rfl, by simp [hf, h1]⟩
    · have hf : isFin u = true := by
        unfold isNanF at h1; unfold isInfF at h2; unfold isFin
        simp only [decide_eq_true_eq] at *
        omega
      rw [if_neg h2]
      split
      · exact ⟨_, _, rfl, by decide⟩
      · obtain ⟨c, s, h, k⟩ := gText_head (nine (fmag (u.toNat % 2 ^ 31))).1 (nine (fmag (u.toNat % 2 ^ 31))).2
        exact ⟨c, s, h, k⟩

theorem body_sign (a b : Bool) (u v : BitVec 32) (h : (if a then [45] else []) ++ body u = (if b then [45] else []) ++ body v) : a = b ∧ body u = body v := by
  have key : ∀ (w : BitVec 32) (s : List UInt8), body w ≠ 45 :: s := by
    intro w s e
    obtain ⟨c, t, h1, h2⟩ := body_head w
    rw [e] at h1
    obtain ⟨rfl, _⟩ := List.cons.inj h1
    split at h2
    · exact absurd h2 (by decide)
    · split at h2 <;> exact absurd h2 (by decide)
  cases a <;> cases b
  · exact ⟨rfl, h⟩
  · exact (key _ _ h).elim
  · exact (key _ _ h.symm).elim
  · exact ⟨rfl, (List.cons.inj h).2⟩

theorem split_bits (u v : BitVec 32) (hs : fneg u = fneg v) (h : u.toNat % 2 ^ 31 = v.toNat % 2 ^ 31) : u = v := by
  have lu := u.isLt
  have lv := v.isLt
  unfold fneg at hs
  have : (2 ^ 31 ≤ u.toNat ↔ 2 ^ 31 ≤ v.toNat) := by
    constructor
    · intro h; rw [decide_eq_true h] at hs; exact of_decide_eq_true hs.symm
    · intro h; rw [decide_eq_true h] at hs; exact of_decide_eq_true hs
  exact BitVec.eq_of_toNat_eq (by omega)

/-- Numbers, infinities and zeros included, print differently; so does the one NaN snek has (snek_float_to_poly, snek-poly.c:33-39). -/
theorem C64_distinct (u v : BitVec 32) (hu : isNanF u = true → u = NAN_U) (hv : isNanF v = true → v = NAN_U) (e : g9 u = g9 v) : u = v := by
  rw [g9_body, g9_body] at e
  obtain ⟨hs, hb⟩ := body_sign _ _ u v e
  obtain ⟨c, s, cu, ku⟩ := body_head u
  obtain ⟨d, t, cv, kv⟩ := body_head v
  rw [cu, cv] at hb
  obtain ⟨rfl, _⟩ := List.cons.inj hb
  have kind : isFin u = isFin v ∧ (isFin u = false → isNanF u = isNanF v) := by
    cases h1 : isFin u <;> cases h2 : isFin v <;> rw [h1] at ku <;> rw [h2] at kv <;> simp only [Bool.false_eq_true, if_false, if_true] at ku kv
    · refine ⟨rfl, fun _ => ?_⟩
      cases h3 : isNanF u <;> cases h4 : isNanF v <;> rw [h3] at ku <;> rw [h4] at kv <;> simp only [Bool.false_eq_true, if_false, if_true] at ku kv <;>
        first | rfl | (rw [ku] at kv; exact absurd kv (by decide))
    · split at ku <;> (rw [ku] at kv; exact absurd kv (by decide))
    · split at kv <;> (rw [kv] at ku; exact absurd ku (by decide))
    · exact ⟨rfl, fun h => by cases h⟩
  cases hf : isFin u with
  | true =>
    have hg : isFin v = true := kind.1 ▸ hf
    have e' : g9 u = g9 v := by rw [g9_body, g9_body]; exact e
    by_cases zu : f32val u = 0 <;> by_cases zv : f32val v = 0
    · rw [fval_eq_spec] at zu zv
      refine split_bits u v hs (fmag_inj _ _ ?_)
      rw [← fval_abs, ← fval_abs, zu, zv]
    · exfalso
      obtain ⟨n, k, b1, _, _, b4⟩ := C64_close v hg zv
      rw [← e', C64_zero u hf zu] at b1
      have : n = 0 := by cases h : fneg u <;> rw [h] at b1 <;> exact (congrArg (·.2.1) b1).symm
      rw [this, Nat.zero_mul, Nat.zero_mul] at b4
      have := Nat.mul_pos (Nat.pos_of_ne_zero (fun h => zv (Int.natAbs_eq_zero.1 h))) (Nat.pow_pos (n := 60) (show 0 < 10 by decide))
      exact absurd b4 (Nat.not_le_of_gt (by rw [Nat.mul_zero]; exact Nat.mul_pos (by decide) this))
    · exfalso
      obtain ⟨n, k, b1, _, _, b4⟩ := C64_close u hf zu
      rw [e', C64_zero v hg zv] at b1
      have : n = 0 := by cases h : fneg v <;> rw [h] at b1 <;> exact (congrArg (·.2.1) b1).symm
      rw [this, Nat.zero_mul, Nat.zero_mul] at b4
      have := Nat.mul_pos (Nat.pos_of_ne_zero (fun h => zu (Int.natAbs_eq_zero.1 h))) (Nat.pow_pos (n := 60) (show 0 < 10 by decide))
      exact absurd b4 (Nat.not_le_of_gt (by rw [Nat.mul_zero]; exact Nat.mul_pos (by decide) this))
    · exact fin_inj u v hf hg zu zv e'
  | false =>
    have hn := kind.2 hf
    cases hnu : isNanF u with
    | true => rw [hu hnu, hv (hn ▸ hnu)]
    | false =>
      have i : ∀ w : BitVec 32, isFin w = false → isNanF w = false → w.toNat % 2 ^ 31 = 0x7f800000 := by
        intro w h1 h2
        unfold isFin at h1; unfold isNanF at h2
        simp only [decide_eq_false_iff_not] at h1 h2
        omega
      exact split_bits u v hs (by rw [i u hf hnu, i v (kind.1 ▸ hf) (hn ▸ hnu)])

theorem g9_chars (u : BitVec 32) : ∀ c ∈ g9 u, isStop c = false := by
  have hn : ∀ c : UInt8, isNumCh c = true → isStop c = false := by
    intro c h
    unfold isNumCh isDigit at h
    unfold isStop
    simp only [Bool.or_eq_true, decide_eq_true_eq] at h
    simp only [decide_eq_false_iff_not]
    rintro (rfl | rfl | rfl | rfl | rfl) <;> revert h <;> decide
  intro c hc
  rw [g9_body] at hc
  rcases List.mem_append.1 hc with hc | hc
  · split at hc
    · rw [List.mem_singleton] at hc; rw [hc]; decide
    · cases hc
  · unfold body at hc
    split at hc
    · simp only [List.mem_cons, List.not_mem_nil, or_false] at hc
      rcases hc with rfl | rfl | rfl <;> decide
    · split at hc
      · simp only [List.mem_cons, List.not_mem_nil, or_false] at hc
        rcases hc with rfl | rfl | rfl <;> decide
      · split at hc
        · rw [List.mem_singleton] at hc; rw [hc]; decide
        · exact hn c (gText_chars _ _ c hc)

/-- With the exact `%.9g` and distinct names, C57_injective's hypothesis holds of every number snek has. -/
theorem C64_library (L : Lib) (hg : L.g9 = g9) (B : Nat → Prop) (h1 : ∀ o p, B o → B p → L.name o = L.name p → o = p) (h2 : ∀ o, B o → 62 ∉ L.name o) :
    Distinct L (fun u => isNanF u = true → u = NAN_U) B where
  num_inj := fun u v hu hv h => C64_distinct u v hu hv (by rw [← hg]; exact h)
  num_stop := fun u _ c hc => g9_chars u c (by rw [← hg]; exact hc)
  num_start := fun u _ => by
    rw [hg, g9_body]
    obtain ⟨c, s, h, k⟩ := body_head u
    cases hn : fneg u with
    | true => exact ⟨45, body u, rfl, by decide⟩
    | false =>
      refine ⟨c, s, h, ?_⟩
      split at k
      · unfold isDigit at k
        unfold isStart
        simp only [decide_eq_true_eq] at k
        simp only [decide_eq_false_iff_not]
        rintro (rfl | rfl | rfl | rfl | rfl | rfl) <;> revert k <;> decide
      · split at k <;> (rw [k]; decide)
  name_inj := h1
  name_stop := h2

/-- Different values, of any nesting, print differently with the exact `%.9g`. -/
theorem C64_values (L : Lib) (hg : L.g9 = g9) (B : Nat → Prop) (h1 : ∀ o p, B o → B p → L.name o = L.name p → o = p) (h2 : ∀ o, B o → 62 ∉ L.name o)
    (t t' : Tree) (h : Ok (fun u => isNanF u = true → u = NAN_U) B t) (h' : Ok (fun u => isNanF u = true → u = NAN_U) B t') (e : fmt L 114 t = fmt L 114 t') : t = t' :=
  C57_injective (C64_library L hg B h1 h2) t t' h h' e

/-- Non-vacuity: 0.1 prints as 0.100000001, the next number as 0.100000009, and 2^-149, infinity and 2^40 as below. -/
example : isFin 0x3dcccccd#32 = true ∧ f32val 0x3dcccccd#32 ≠ 0 ∧ g9 0x3dcccccd#32 = "0.100000001".toUTF8.toList ∧
    g9 0x3dccccce#32 = "0.100000009".toUTF8.toList ∧ g9 1#32 = "1.40129846e-45".toUTF8.toList ∧
    g9 0xff800000#32 = "-inf".toUTF8.toList ∧ g9 0x53800000#32 = "1.09951163e+12".toUTF8.toList ∧ g9 0xc2f6e979#32 = "-123.456001".toUTF8.toList := by
  refine ⟨by decide, by decide +kernel, by decide +kernel, by decide +kernel, by decide +kernel, by decide +kernel, by decide +kernel, by decide +kernel⟩

/-- And a reader: `decimal` of those characters is the number they spell. -/
example : decimal "-123.456001".toUTF8.toList = (true, 123456001, -6) ∧ decimal "1.40129846e-45".toUTF8.toList = (false, 140129846, -53) := by
  decide +kernel

end Snek.Format
