import Verif.Model.Libc
import Verif.Props.C57
import Verif.Proofs.Round
import Verif.Props.C50
/-! The text of `%.9g` and the number that it writes. -/
namespace Snek.Format
open Spec.Print

theorem numeral_cat (a b : List UInt8) : numeral 10 (a ++ b) = numeral 10 a * 10 ^ b.length + numeral 10 b := by
  have gen : ∀ (b : List UInt8) (x : Nat), b.foldl (fun n c => n * 10 + digitVal c) x = x * 10 ^ b.length + b.foldl (fun n c => n * 10 + digitVal c) 0 := by
    intro b
    induction b with
    | nil => intro x; simp
    | cons c b ih =>
      intro x
      simp only [List.foldl_cons, List.length_cons]
      rw [ih (x * 10 + digitVal c), ih (0 * 10 + digitVal c), Nat.pow_succ, Nat.add_mul, Nat.add_mul, Nat.zero_mul, Nat.zero_add,
        Nat.mul_assoc, Nat.mul_comm 10, Nat.add_assoc]
  unfold numeral
  rw [List.foldl_append, gen b]

theorem numeral_zeros (k : Nat) : numeral 10 (List.replicate k 48) = 0 := by
  induction k with
  | zero => rfl
  | succ k ih =>
    rw [List.replicate_succ, show (48 : UInt8) :: List.replicate k 48 = [48] ++ List.replicate k 48 from rfl, numeral_cat, ih]
    rw [show numeral 10 [48] = 0 by decide]
    simp

theorem pad_length (n D : Nat) : (pad n D).length = n := by
  induction n generalizing D with
  | zero => rfl
  | succ n ih => simp [pad, ih]

theorem pad_digit (n D : Nat) : ∀ c ∈ pad n D, isDigit c = true := by
  induction n generalizing D with
  | zero => intro c hc; cases hc
  | succ n ih =>
    intro c hc
    rcases List.mem_append.1 hc with hc | hc
    · exact ih _ c hc
    · rw [List.mem_singleton] at hc
      have : ∀ d, d < 10 → isDigit (digit false d) = true := by decide
      rw [hc]; exact this _ (Nat.mod_lt _ (by decide))

theorem numeral_pad (n D : Nat) (h : D < 10 ^ n) : numeral 10 (pad n D) = D := by
  induction n generalizing D with
  | zero => simp at h; subst h; rfl
  | succ n ih =>
    rw [pad, numeral_append, ih (D / 10) (by rw [Nat.div_lt_iff_lt_mul (by decide)]; rw [Nat.pow_succ] at h; exact h),
      digit_val false _ (by have := Nat.mod_lt D (show 0 < 10 by decide); omega)]
    omega

theorem strip_zeros (F : List UInt8) : F = strip F ++ List.replicate (F.length - (strip F).length) 48 := by
  have h : ∀ l : List UInt8, l = List.replicate (l.length - (l.dropWhile (· = 48)).length) 48 ++ l.dropWhile (· = 48) := by
    intro l
    induction l with
    | nil => rfl
    | cons c l ih =>
      by_cases hc : c = 48
      · subst hc
        simp only [List.dropWhile_cons, decide_true, if_true, List.length_cons]
        have hle := (List.dropWhile_suffix (fun c : UInt8 => decide (c = 48)) (l := l)).length_le
        rw [show l.length + 1 - (l.dropWhile (· = 48)).length = l.length - (l.dropWhile (· = 48)).length + 1 by omega, List.replicate_succ, List.cons_append, ← ih]
      · simp [hc]
  have := h F.reverse
  unfold strip
  rw [List.length_reverse]
  have h2 := congrArg List.reverse this
  rw [List.reverse_reverse, List.reverse_append, List.length_reverse, List.reverse_replicate] at h2
  exact h2

theorem strip_digit (F : List UInt8) (h : ∀ c ∈ F, isDigit c = true) : ∀ c ∈ strip F, isDigit c = true := by
  intro c hc
  refine h c ?_
  unfold strip at hc
  rw [List.mem_reverse] at hc
  have := (List.dropWhile_suffix (fun c : UInt8 => decide (c = 48)) (l := F.reverse)).subset hc
  exact List.mem_reverse.1 this

theorem span_digits (a r : List UInt8) (ha : ∀ c ∈ a, isDigit c = true) (hr : ∀ c ∈ r.head?, isDigit c = false) :
    (a ++ r).takeWhile isDigit = a ∧ (a ++ r).dropWhile isDigit = r := by
  induction a with
  | nil =>
    cases r with
    | nil => exact ⟨rfl, rfl⟩
    | cons c r => simp [hr c (by simp)]
  | cons c a ih =>
    have ih := ih (fun c hc => ha c (by simp [hc]))
    simp [ha c (by simp), ih]

/-- The exponent of a suffix. -/
def sufExp (suf : List UInt8) : Int := match suf with
  | 101 :: 45 :: t => -(numeral 10 t : Int)
  | 101 :: 43 :: t => numeral 10 t
  | _ => 0

theorem unsigned_point (ip fp suf : List UInt8) (h1 : ∀ c ∈ ip, isDigit c = true) (h2 : ∀ c ∈ fp, isDigit c = true)
    (h3 : suf = [] ∨ ∃ t, suf = 101 :: t) : unsigned (point ip fp ++ suf) = (numeral 10 (ip ++ fp), sufExp suf - fp.length) := by
  have hs : ∀ c ∈ suf.head?, isDigit c = false := by
    intro c hc
    rcases h3 with rfl | ⟨t, rfl⟩
    · cases hc
    · simp only [List.head?_cons, Option.mem_some_iff] at hc; rw [← hc]; decide
  unfold point
  split
  · rename_i hf
    subst hf
    obtain ⟨e1, e2⟩ := span_digits ip suf h1 hs
    unfold unsigned
    rw [e1, e2]
    rcases h3 with rfl | ⟨t, rfl⟩ <;> rfl
  · obtain ⟨e1, e2⟩ := span_digits ip (46 :: (fp ++ suf)) h1 (by intro c hc; simp only [List.head?_cons, Option.mem_some_iff] at hc; rw [← hc]; decide)
    obtain ⟨e3, e4⟩ := span_digits fp suf h2 hs
    unfold unsigned
    rw [show ip ++ [46] ++ fp ++ suf = ip ++ (46 :: (fp ++ suf)) by simp, e1, e2]
    simp only [e3, e4]
    rfl

theorem point_strip (ip F suf : List UInt8) (h1 : ∀ c ∈ ip, isDigit c = true) (h2 : ∀ c ∈ F, isDigit c = true)
    (h3 : suf = [] ∨ ∃ t, suf = 101 :: t) :
    ∃ n z : Nat, unsigned (point ip (strip F) ++ suf) = (n, sufExp suf - F.length + z) ∧ n * 10 ^ z = numeral 10 (ip ++ F) := by
  have hz := strip_zeros F
  refine ⟨numeral 10 (ip ++ strip F), F.length - (strip F).length, ?_, ?_⟩
  · have hle : (strip F).length ≤ F.length := by
      have := congrArg List.length hz
      rw [List.length_append] at this; omega
    rw [unsigned_point ip _ suf h1 (strip_digit F h2) h3]
    congr 1
    omega
  · conv => rhs; rw [hz, ← List.append_assoc, numeral_cat, numeral_zeros, List.length_replicate, Nat.add_zero]

/-- The text writes `D * 10^(Y - 53)`, with zeros dropped. -/
theorem gText_val (D Y : Nat) (hD : D < 10 ^ 9) (hY : Y ≤ 99) : ∃ n z : Nat, unsigned (gText D Y) = (n, (Y : Int) - 53 + z) ∧ n * 10 ^ z = D := by
  have hl := pad_length 9 D
  have hd := pad_digit 9 D
  have hn := numeral_pad 9 D hD
  have ht : ∀ k, ∀ c ∈ (pad 9 D).take k, isDigit c = true := fun k c hc => hd c (List.mem_of_mem_take hc)
  have hdr : ∀ k, ∀ c ∈ (pad 9 D).drop k, isDigit c = true := fun k c hc => hd c (List.mem_of_mem_drop hc)
  unfold gText
  split
  · obtain ⟨n, z, e1, e2⟩ := point_strip ((pad 9 D).take 1) ((pad 9 D).drop 1) ([101, 45] ++ pad 2 (45 - Y)) (ht 1) (hdr 1) (.inr ⟨_, rfl⟩)
    rw [List.take_append_drop, hn] at e2
    refine ⟨n, z, ?_, e2⟩
    rw [List.append_assoc, e1]
    have : sufExp ([101, 45] ++ pad 2 (45 - Y)) = -(numeral 10 (pad 2 (45 - Y)) : Int) := rfl
    rw [this, numeral_pad 2 _ (by omega), List.length_drop, hl]
    congr 1; omega
  · split
    · obtain ⟨n, z, e1, e2⟩ := point_strip ((pad 9 D).take 1) ((pad 9 D).drop 1) ([101, 43] ++ pad 2 (Y - 45)) (ht 1) (hdr 1) (.inr ⟨_, rfl⟩)
      rw [List.take_append_drop, hn] at e2
      refine ⟨n, z, ?_, e2⟩
      rw [List.append_assoc, e1]
      have : sufExp ([101, 43] ++ pad 2 (Y - 45)) = (numeral 10 (pad 2 (Y - 45)) : Int) := rfl
      rw [this, numeral_pad 2 _ (by omega), List.length_drop, hl]
      congr 1; omega
    · split
      · obtain ⟨n, z, e1, e2⟩ := point_strip ((pad 9 D).take (Y - 44)) ((pad 9 D).drop (Y - 44)) [] (ht _) (hdr _) (.inl rfl)
        rw [List.take_append_drop, hn] at e2
        refine ⟨n, z, ?_, e2⟩
        rw [List.append_nil] at e1
        rw [e1, List.length_drop, hl]
        congr 1
        show (0 : Int) - _ + _ = _
        omega
      · obtain ⟨n, z, e1, e2⟩ := point_strip [48] (List.replicate (44 - Y) 48 ++ pad 9 D) [] (by decide)
          (by
            intro c hc
            rcases List.mem_append.1 hc with hc | hc
            · rw [(List.mem_replicate.1 hc).2]; decide
            · exact hd c hc) (.inl rfl)
        rw [numeral_cat, numeral_cat, numeral_zeros, hn, show numeral 10 [48] = 0 by decide, Nat.zero_mul, Nat.zero_mul, Nat.zero_add, Nat.zero_add] at e2
        refine ⟨n, z, ?_, e2⟩
        rw [List.append_nil] at e1
        rw [e1, List.length_append, List.length_replicate, hl]
        congr 1
        show (0 : Int) - _ + _ = _
        omega

theorem ilog10_spec (n : Nat) (h : 0 < n) : 10 ^ ilog10 n ≤ n ∧ n < 10 ^ (ilog10 n + 1) := by
  rw [ilog10]
  split
  · simp; omega
  · have ih := ilog10_spec (n / 10) (by omega)
    rw [Nat.pow_succ 10 (ilog10 (n / 10) + 1), Nat.pow_succ]
    omega
termination_by n

theorem nine_gen (U M Y D : Nat) (r : Nat × Nat) (hU : 0 < U) (hM : U ≤ M) (hY : Y = ilog10 (M / U)) (hD : D = rne (M * 10 ^ 8) (U * 10 ^ Y))
    (hr : r = if D = 10 ^ 9 then (10 ^ 8, Y + 1) else (D, Y)) : 10 ^ 8 ≤ r.1 ∧ r.1 < 10 ^ 9 ∧
    2 * (r.1 * (U * 10 ^ r.2)) ≤ 2 * (M * 10 ^ 8) + M ∧ 2 * (M * 10 ^ 8) ≤ 2 * (r.1 * (U * 10 ^ r.2)) + M ∧ U * 10 ^ r.2 ≤ 10 * M := by
  have hq : 0 < M / U := Nat.div_pos hM hU
  obtain ⟨l1, l2⟩ := ilog10_spec (M / U) hq
  rw [← hY] at l1 l2
  clear hY
  have b1 : U * 10 ^ Y ≤ M := Nat.le_trans (Nat.mul_le_mul_left _ l1) (Nat.mul_div_le M U)
  have b2 : M < 10 * (U * 10 ^ Y) := by
    have := Nat.lt_mul_div_succ M hU
    have h2 := Nat.mul_le_mul_left U l2
    rw [Nat.pow_succ] at h2
    rw [Nat.mul_comm 10, Nat.mul_assoc]
    exact Nat.lt_of_lt_of_le this h2
  have hd : 0 < U * 10 ^ Y := Nat.mul_pos hU (Nat.pow_pos (by decide))
  obtain ⟨c1, c2⟩ := rne_bounds (M * 10 ^ 8) (U * 10 ^ Y) (10 ^ 8) (10 ^ 9) hd (by rw [Nat.mul_comm M]; exact Nat.mul_le_mul_left _ b1)
    (by omega)
  obtain ⟨e1, e2⟩ := rne_err (M * 10 ^ 8) (U * 10 ^ Y) hd
  rw [Nat.mul_comm (U * 10 ^ Y)] at e1 e2
  rw [← hD] at c1 c2 e1 e2
  split at hr
  · rename_i h9
    rw [h9] at e1 e2
    have : U * 10 ^ (Y + 1) = 10 * (U * 10 ^ Y) := by rw [Nat.pow_succ, ← Nat.mul_assoc, Nat.mul_comm]
    subst hr
    simp only [this]
    omega
  · rename_i h9
    subst hr
    simp only
    omega

/-- Nine digits, the error is at most half a unit of the last one, and half of 10^-8 of the number. -/
theorem nine_spec (m : Nat) (hm : 0 < m) : 10 ^ 8 ≤ (nine m).1 ∧ (nine m).1 < 10 ^ 9 ∧
    2 * ((nine m).1 * (2 ^ 149 * 10 ^ (nine m).2)) ≤ 2 * (m * 10 ^ 45 * 10 ^ 8) + m * 10 ^ 45 ∧
    2 * (m * 10 ^ 45 * 10 ^ 8) ≤ 2 * ((nine m).1 * (2 ^ 149 * 10 ^ (nine m).2)) + m * 10 ^ 45 ∧
    2 ^ 149 * 10 ^ (nine m).2 ≤ 10 * (m * 10 ^ 45) :=
  nine_gen (2 ^ 149) (m * 10 ^ 45) _ _ (nine m) (Nat.pow_pos (Nat.succ_pos 1))
    (Nat.le_trans (by decide +kernel) (Nat.le_mul_of_pos_left _ hm)) rfl rfl rfl

/-- The exponent has two digits. -/
theorem nine_exp (m : Nat) (hm : 0 < m) (hb : m < 2 ^ 277) : (nine m).2 ≤ 99 := by
  have h := (nine_spec m hm).2.2.2.2
  by_cases hc : (nine m).2 ≤ 99
  · exact hc
  · exfalso
    have h1 : 10 ^ 100 ≤ 10 ^ (nine m).2 := Nat.pow_le_pow_right (by decide) (by omega)
    have h2 := Nat.mul_le_mul_left (2 ^ 149) h1
    have h3 : 10 * (m * 10 ^ 45) < 10 * (2 ^ 277 * 10 ^ 45) := by
      have : m * 10 ^ 45 < 2 ^ 277 * 10 ^ 45 := Nat.mul_lt_mul_of_pos_right hb (Nat.pow_pos (by decide))
      omega
    have h4 : 10 * (2 ^ 277 * 10 ^ 45) ≤ 2 ^ 149 * 10 ^ 100 := by decide +kernel
    exact absurd (Nat.lt_of_le_of_lt (Nat.le_trans h2 h) (Nat.lt_of_lt_of_le h3 h4)) (Nat.lt_irrefl _)

/-- Neighbouring magnitudes. -/
theorem fmag_succ (a : Nat) : ∃ g, fmag (a + 1) = fmag a + g ∧ fmag a < g * 2 ^ 24 ∧ 0 < g := by
  obtain ⟨e, m, rfl, h1, h2⟩ : ∃ e m, a = e * 2 ^ 23 + m ∧ m < 2 ^ 24 ∧ (e = 0 ∨ 2 ^ 23 ≤ m) := by
    by_cases ha : a < 2 ^ 24
    · exact ⟨0, a, by omega, ha, .inl rfl⟩
    · exact ⟨a / 2 ^ 23 - 1, a % 2 ^ 23 + 2 ^ 23, by omega, by omega, .inr (by omega)⟩
  refine ⟨2 ^ e, ?_, ?_, Nat.pow_pos (by decide)⟩
  · rw [Nat.add_assoc, fmag_enc' e (m + 1) (by omega) (by omega), fmag_enc' e m (by omega) h2, Nat.add_mul, Nat.one_mul]
  · rw [fmag_enc' e m (by omega) h2, Nat.mul_comm]
    exact Nat.mul_lt_mul_of_pos_left h1 (Nat.pow_pos (by decide))

theorem fmag_lt (a b : Nat) (h : a < b) : fmag (a + 1) ≤ fmag b := by
  obtain ⟨k, rfl⟩ : ∃ k, b = a + 1 + k := ⟨b - (a + 1), by omega⟩
  clear h
  induction k with
  | zero => exact Nat.le_refl _
  | succ k ih =>
    obtain ⟨g, hg, _, _⟩ := fmag_succ (a + 1 + k)
    rw [show a + 1 + (k + 1) = a + 1 + k + 1 by omega, hg]
    omega

theorem fmag_inj (a b : Nat) (h : fmag a = fmag b) : a = b := by
  rcases Nat.lt_trichotomy a b with hl | hl | hl
  · have := fmag_lt a b hl
    obtain ⟨g, hg, _, h0⟩ := fmag_succ a
    omega
  · exact hl
  · have := fmag_lt b a hl
    obtain ⟨g, hg, _, h0⟩ := fmag_succ b
    omega

/-- Different magnitudes are far apart. -/
theorem fmag_gap (a b : Nat) (h : fmag a ≠ fmag b) : fmag a < ((fmag a : Int) - fmag b).natAbs * 16777217 := by
  rcases Nat.lt_trichotomy a b with hl | hl | hl
  · have h3 := fmag_lt a b hl
    obtain ⟨g, hg, h1, h0⟩ := fmag_succ a
    rw [hg] at h3
    have h4 : g ≤ ((fmag a : Int) - fmag b).natAbs := by omega
    exact Nat.lt_of_lt_of_le h1 (Nat.mul_le_mul h4 (by decide))
  · rw [hl] at h; exact absurd rfl h
  · have h3 := fmag_lt b a hl
    obtain ⟨g, hg, h1, h0⟩ := fmag_succ b
    rw [hg] at h3
    have h4 : fmag a = fmag b + ((fmag a : Int) - fmag b).natAbs := by omega
    have h5 : g ≤ ((fmag a : Int) - fmag b).natAbs := by omega
    have h6 : fmag b < ((fmag a : Int) - fmag b).natAbs * 2 ^ 24 := Nat.lt_of_lt_of_le h1 (Nat.mul_le_mul_right _ h5)
    have h7 : ((fmag a : Int) - fmag b).natAbs * 16777217 = ((fmag a : Int) - fmag b).natAbs * 2 ^ 24 + ((fmag a : Int) - fmag b).natAbs :=
      Nat.mul_succ _ (2 ^ 24)
    rw [h7]
    conv => lhs; rw [h4]
    exact Nat.add_lt_add_right h6 _

theorem fmag_inf : fmag 0x7f800000 = 2 ^ 277 := by decide +kernel

theorem fmag_bound (n : Nat) (h : n < 0x7f800000) : fmag n < 2 ^ 277 := by
  rw [← fmag_inf]
  generalize 0x7f800000 = N at *
  obtain ⟨g, hg, _, h0⟩ := fmag_succ n
  exact Nat.lt_of_lt_of_le (by rw [hg]; exact Nat.lt_add_of_pos_right h0) (fmag_lt n N h)

end Snek.Format
