import Verif.Proofs.Slice
/-! The slice computation of the code against the positions of a Python slice. -/
namespace Snek

theorem slice_int_some (A : Arch) (x : Int) (h : -(2 ^ (A.intBits - 1)) ≤ x ∧ x < 2 ^ (A.intBits - 1)) : A.int x = some x := by
  unfold Arch.int; rw [if_pos h]

theorem slice_bmod_small (A : Arch) (x : Int) (hA : A.Valid) (h1 : -(2 ^ (A.offBits - 1)) ≤ x) (h2 : x < 2 ^ (A.offBits - 1)) :
    A.toSoff x = x := by
  unfold Arch.toSoff
  have hlo := hA.lo
  obtain ⟨m, hm⟩ : ∃ m, A.offBits = m + 1 := ⟨A.offBits - 1, by omega⟩
  rw [hm] at h1 h2 ⊢
  rw [Nat.add_sub_cancel] at h1 h2
  have e : (2 : Nat) ^ (m + 1) = 2 * 2 ^ m := by rw [Nat.pow_succ]; omega
  rw [Int.bmod_eq_of_le]
  · rw [e]; push_cast; omega
  · rw [e]; push_cast; omega

/-- The start the specification uses. -/
def sliceSpecStart (L : Int) (d : Int) : Option Int → Int
  | none => if d > 0 then 0 else L - 1
  | some p => if d > 0 then max (if p < 0 then L + p else p) 0 else min (if p < 0 then L + p else p) (L - 1)

/-- The end the specification uses, clamped to the container. -/
def sliceSpecEnd (L : Int) (d : Int) : Option Int → Int
  | none => if d > 0 then L else -1
  | some p => if d > 0 then min (if p < 0 then L + p else p) L else max (if p < 0 then L + p else p) (-1)

theorem sliceSpec_indices (len : Nat) (start stop : Option Int) (d : Int) :
    Spec.sliceIndices len start stop d =
    if d > 0 then (List.range len).filter fun i : Nat => sliceSpecStart len d start ≤ (i : Int) ∧ (i : Int) < sliceSpecEnd len d stop ∧
        ((i : Int) - sliceSpecStart len d start) % d = 0
    else ((List.range len).filter fun i : Nat => (i : Int) ≤ sliceSpecStart len d start ∧ sliceSpecEnd len d stop < (i : Int) ∧
        (sliceSpecStart len d start - (i : Int)) % (-d) = 0).reverse := by
  unfold Spec.sliceIndices
  by_cases hd : d > 0
  · simp only [hd, if_true]
    apply List.filter_congr
    intro i hi
    simp only [List.mem_range] at hi
    congr 1
    apply propext
    cases start <;> cases stop <;> simp only [sliceSpecStart, sliceSpecEnd, Spec.fromEnd, hd, if_true] <;>
      (constructor <;> (rintro ⟨h1, h2, h3⟩; exact ⟨by omega, by omega, h3⟩))
  · simp only [hd, if_false]
    congr 1
    apply List.filter_congr
    intro i hi
    simp only [List.mem_range] at hi
    congr 1
    apply propext
    cases start <;> cases stop <;> simp only [sliceSpecStart, sliceSpecEnd, Spec.fromEnd, hd, if_false] <;>
      (constructor <;> (rintro ⟨h1, h2, h3⟩; exact ⟨by omega, by omega, h3⟩))

theorem slice_start_bounds (L d : Int) (start : Option Int) (hL : 0 ≤ L) (hd : d ≠ 0) :
    (d > 0 → 0 ≤ sliceSpecStart L d start ∧ sliceSpecStart L d start ≤ L + (start.getD 0).natAbs) ∧
    (d < 0 → sliceSpecStart L d start ≤ L - 1 ∧ -1 - (start.getD 0).natAbs ≤ sliceSpecStart L d start) := by
  cases start with
  | none => simp only [sliceSpecStart, Option.getD_none]; constructor <;> intro h <;> split <;> omega
  | some p => simp only [sliceSpecStart, Option.getD_some]; constructor <;> intro h <;> split <;> split <;> omega

theorem slice_end_bounds (L d : Int) (stop : Option Int) (hL : 0 ≤ L) (hd : d ≠ 0) :
    (d > 0 → sliceSpecEnd L d stop ≤ L ∧ -(stop.getD 0).natAbs ≤ sliceSpecEnd L d stop) ∧
    (d < 0 → -1 ≤ sliceSpecEnd L d stop ∧ sliceSpecEnd L d stop ≤ L + (stop.getD 0).natAbs) := by
  cases stop with
  | none => simp only [sliceSpecEnd, Option.getD_none]; constructor <;> intro h <;> split <;> omega
  | some p => simp only [sliceSpecEnd, Option.getD_some]; constructor <;> intro h <;> split <;> split <;> omega

theorem slice_calc_eq (A : Arch) (hA : A.Valid) (L d : Int) (start stop : Option Int) (hL : 0 ≤ L) (hd0 : d ≠ 0)
    (hs1 : start ≠ some A.soffNone) (hs2 : stop ≠ some A.soffNone)
    (hoff : L + (start.getD 0).natAbs + (stop.getD 0).natAbs + 4 < 2 ^ (A.offBits - 1))
    (hint : L + (start.getD 0).natAbs + (stop.getD 0).natAbs + d.natAbs + 4 < 2 ^ (A.intBits - 1)) :
    ∃ n : Nat, (∀ k : Nat, k < n ↔ (if d > 0 then sliceSpecStart L d start + k * d < sliceSpecEnd L d stop
        else sliceSpecEnd L d stop < sliceSpecStart L d start + k * d)) ∧
      (n : Int) ≤ L ∧
      sliceCalc A L (start.getD A.soffNone) (stop.getD A.soffNone) d =
        some { count := n, pos := A.toOff (sliceSpecStart L d start), stride := d,
               identity := decide (sliceSpecStart L d start = 0 ∧ (n : Int) = L ∧ d = 1) } := by
  have hlo := hA.lo
  have hle := hA.le
  have hP : (2 : Int) ^ (A.offBits - 1) ≤ 2 ^ (A.intBits - 1) := by
    have : (2 : Nat) ^ (A.offBits - 1) ≤ 2 ^ (A.intBits - 1) := Nat.pow_le_pow_right (by decide) (by omega)
    exact_mod_cast this
  have hPo : (2 : Int) ^ A.offBits = 2 * 2 ^ (A.offBits - 1) := by
    obtain ⟨m, hm⟩ : ∃ m, A.offBits = m + 1 := ⟨A.offBits - 1, by omega⟩
    rw [hm, Nat.add_sub_cancel, Int.pow_succ]; omega
  have hint' : ∀ x : Int, -(2 ^ (A.intBits - 1)) ≤ x → x < 2 ^ (A.intBits - 1) → A.int x = some x :=
    fun x h1 h2 => slice_int_some A x ⟨h1, h2⟩
  have hsoff : ∀ x : Int, -(2 ^ (A.offBits - 1)) ≤ x → x < 2 ^ (A.offBits - 1) → A.toSoff x = x :=
    fun x h1 h2 => slice_bmod_small A x hA h1 h2
  have hnone : A.soffNone = 2 ^ (A.offBits - 1) - 4 := rfl
  have htoOff : ∀ x : Int, 0 ≤ x → x < 2 ^ (A.offBits - 1) → A.toOff x = x.toNat := by
    intro x h1 h2; apply toOff_of_lt A x h1; rw [hPo]; omega
  have hsb := slice_start_bounds L d start hL hd0
  have heb := slice_end_bounds L d stop hL hd0
  generalize (2 : Int) ^ (A.offBits - 1) = P at *
  generalize (2 : Int) ^ (A.intBits - 1) = Q at *
  have hfe : ∀ p : Int, -P ≤ p → p < P → L + p.natAbs + 2 ≤ Q → L < P →
      sliceFromEnd A L p = some (if p < 0 then L + p else p) := by
    intro p h1 h2 h3 h4
    unfold sliceFromEnd
    split
    · rw [hint' _ (by omega) (by omega)]
      simp only [Option.map_some]
      rw [hsoff _ (by omega) (by omega)]
    · rfl
  have hm1 : (A.int (L - 1)).map A.toSoff = some (L - 1) := by
    rw [hint' _ (by omega) (by omega)]; simp only [Option.map_some]; rw [hsoff _ (by omega) (by omega)]
  have h1 : (sliceFromEnd A L (start.getD A.soffNone)).bind (sliceStart A L · d) = some (sliceSpecStart L d start) := by
    cases start with
    | none =>
      simp only [Option.getD_none, sliceFromEnd]
      rw [if_neg (by omega)]
      simp only [Option.bind_some, sliceStart, true_or, if_true, hm1, sliceSpecStart]
      split <;> rfl
    | some p =>
      have hp : p ≠ A.soffNone := fun h => hs1 (by rw [h])
      simp only [Option.getD_some] at *
      rw [hfe p (by omega) (by omega) (by omega) (by omega)]
      simp only [Option.bind_some, sliceStart, hm1, sliceSpecStart]
      by_cases hp0 : p < 0 <;> simp only [hp0, if_true, if_false]
      · split
        · congr 1; split <;> omega
        · split <;> (congr 1; omega)
      · split
        · congr 1
          have : ¬ (p = A.soffNone ∨ False) := by simp [hp]
          rw [if_neg this]; omega
        · split <;> (congr 1; omega)
  have h2 : (sliceFromEnd A L (stop.getD A.soffNone)).map (sliceEnd A L · d) = some (sliceSpecEnd L d stop) := by
    cases stop with
    | none =>
      simp only [Option.getD_none, sliceFromEnd]
      rw [if_neg (by omega)]
      simp only [Option.map_some, sliceEnd, true_or, if_true, sliceSpecEnd]
    | some p =>
      have hp : p ≠ A.soffNone := fun h => hs2 (by rw [h])
      simp only [Option.getD_some] at *
      rw [hfe p (by omega) (by omega) (by omega) (by omega)]
      simp only [Option.map_some, sliceEnd, sliceSpecEnd]
      congr 1
      split <;> (split <;> split <;> omega)
  have hsgn : soffsetSgn d = if d > 0 then 1 else -1 := by
    unfold soffsetSgn; split <;> split <;> omega
  generalize sliceSpecStart L d start = s at *
  generalize sliceSpecEnd L d stop = e at *
  generalize (start.getD 0).natAbs = as at *
  generalize (stop.getD 0).natAbs = ae at *
  have hi1 : A.int (e + d) = some (e + d) := by
    apply hint' <;> (rcases Int.lt_or_gt_of_ne hd0 with h | h <;> omega)
  have hi2 : A.int (e + d - soffsetSgn d) = some (e + d - soffsetSgn d) := by
    rw [hsgn]
    apply hint' <;> (rcases Int.lt_or_gt_of_ne hd0 with h | h <;> split <;> omega)
  have hi3 : A.int (e + d - soffsetSgn d - s) = some (e + d - soffsetSgn d - s) := by
    rw [hsgn]
    apply hint' <;> (rcases Int.lt_or_gt_of_ne hd0 with h | h <;> split <;> omega)
  obtain ⟨q, hq⟩ : ∃ q, q = Int.tdiv (e + d - soffsetSgn d - s) d := ⟨_, rfl⟩
  have hcnt : ∀ k : Nat, (k : Int) < q ↔ (if d > 0 then s + k * d < e else e < s + k * d) := by
    intro k
    rcases Int.lt_or_gt_of_ne hd0 with h | h
    · have h' : ¬ d > 0 := by omega
      simp only [h', if_false]
      rw [← bwd_count s e d h, hq, hsgn, if_neg h']
      rw [show e + d - -1 - s = e + d + 1 - s by omega]
    · simp only [h, if_true]
      rw [← fwd_count s e d h, hq, hsgn, if_pos h]
  have hqL : q ≤ L := by
    apply Int.not_lt.1
    intro hlt
    have hk := (hcnt L.toNat).1 (by omega)
    rw [Int.toNat_of_nonneg hL] at hk
    rcases Int.lt_or_gt_of_ne hd0 with h | h
    · have : L * d ≤ L * (-1) := Int.mul_le_mul_of_nonneg_left (by omega) hL
      rw [if_neg (by omega)] at hk
      have := heb.2 h; have := hsb.2 h; omega
    · have : L * 1 ≤ L * d := Int.mul_le_mul_of_nonneg_left (by omega) hL
      rw [if_pos h] at hk
      have := heb.1 h; have := hsb.1 h; omega
  have hqlow : -P ≤ q := by
    -- -q * |d| ≤ |t|
    have hb : q.natAbs ≤ L + as + ae + 2 := by
      by_cases hq0 : 0 ≤ q
      · omega
      · have hlt : q < 0 := by omega
        have hm : q * d + Int.tmod (e + d - soffsetSgn d - s) d = e + d - soffsetSgn d - s := by
          rw [hq, Int.mul_comm]; exact Int.mul_tdiv_add_tmod _ _
        have hr : (Int.tmod (e + d - soffsetSgn d - s) d).natAbs < d.natAbs := by
          rw [Int.natAbs_tmod]; exact Nat.mod_lt _ (by omega)
        rcases Int.lt_or_gt_of_ne hd0 with h | h
        · rw [hsgn, if_neg (by omega)] at hm hr
          have h3 := heb.2 h; have h4 := hsb.2 h
          have h5 : (-q - 1) * 1 ≤ (-q - 1) * (-d) := Int.mul_le_mul_of_nonneg_left (by omega) (by omega)
          have h6 : (-q - 1) * (-d) = q * d + d := by rw [Int.sub_mul, Int.neg_mul_neg, Int.one_mul]; omega
          omega
        · rw [hsgn, if_pos h] at hm hr
          have h3 := heb.1 h; have h4 := hsb.1 h
          have h5 : (-q - 1) * 1 ≤ (-q - 1) * d := Int.mul_le_mul_of_nonneg_left (by omega) (by omega)
          have h6 : (-q - 1) * d = -(q * d) - d := by rw [Int.sub_mul, Int.neg_mul]; omega
          omega
    omega
  refine ⟨q.toNat, ?_, by omega, ?_⟩
  · intro k; rw [← hcnt]; omega
  · have hbind := h1
    unfold sliceCalc
    obtain ⟨s1, hs1e⟩ : ∃ x, sliceFromEnd A L (start.getD A.soffNone) = some x := by
      cases h : sliceFromEnd A L (start.getD A.soffNone) with
      | none => rw [h] at h1; simp at h1
      | some x => exact ⟨x, rfl⟩
    obtain ⟨s2, hs2e⟩ : ∃ x, sliceFromEnd A L (stop.getD A.soffNone) = some x := by
      cases h : sliceFromEnd A L (stop.getD A.soffNone) with
      | none => rw [h] at h2; simp at h2
      | some x => exact ⟨x, rfl⟩
    rw [hs1e] at h1; rw [hs2e] at h2
    simp only [Option.bind_some] at h1
    simp only [Option.map_some, Option.some.injEq] at h2
    simp only [hs1e, hs2e, Option.bind_eq_bind, Option.bind_some, h1, h2, hi1, hi2, hi3, ← hq, Option.pure_def]
    rw [hsoff q hqlow (by omega)]
    have hc : (if q < 0 then 0 else q) = (q.toNat : Int) := by split <;> omega
    rw [hc, htoOff _ (by omega) (by omega)]
    simp
    try omega

theorem slice_range_filterMap (data : List α) : (List.range data.length).filterMap (data[·]?) = data := by
  induction data with
  | nil => rfl
  | cons a t ih =>
    rw [List.length_cons, List.range_succ_eq_map, List.filterMap_cons, List.filterMap_map]
    simp only [List.getElem?_cons_zero]
    congr 1


theorem filterMap_congr_mem {α β : Type _} {f g : α → Option β} {l : List α} (h : ∀ x ∈ l, f x = g x) : l.filterMap f = l.filterMap g := by
  induction l with
  | nil => rfl
  | cons a l ih =>
    rw [List.filterMap_cons, List.filterMap_cons, h a (List.mem_cons_self ..), ih (fun x hx => h x (List.mem_cons_of_mem _ hx))]

theorem filterMap_all_length {α β : Type _} {f : α → Option β} {l : List α} (h : ∀ x ∈ l, (f x).isSome = true) : (l.filterMap f).length = l.length := by
  induction l with
  | nil => rfl
  | cons a l ih =>
    have ha := h a (List.mem_cons_self ..)
    cases hf : f a with
    | none => rw [hf] at ha; cases ha
    | some b => rw [List.filterMap_cons, hf]; simp only [List.length_cons]; rw [ih (fun x hx => h x (List.mem_cons_of_mem _ hx))]

/-- What a slice of the first `L` elements of some storage comes to. -/
theorem slice_run (A : Arch) (hA : A.Valid) (data : List α) (L : Nat) (hL : L ≤ data.length) (hD : (data.length : Int) ≤ 2 ^ A.offBits)
    (start stop : Option Int) (d : Int) (hd0 : d ≠ 0) (hs1 : start ≠ some A.soffNone) (hs2 : stop ≠ some A.soffNone)
    (hoff : (L : Int) + (start.getD 0).natAbs + (stop.getD 0).natAbs + 4 < 2 ^ (A.offBits - 1))
    (hint : (L : Int) + (start.getD 0).natAbs + (stop.getD 0).natAbs + d.natAbs + 4 < 2 ^ (A.intBits - 1)) :
    ∃ c, sliceCalc A L (start.getD A.soffNone) (stop.getD A.soffNone) d = some c ∧ c.count ≤ L ∧
      sliceLoop A data c.count c.pos c.stride = some (Spec.slice (data.take L) start stop d) ∧
      (Spec.slice (data.take L) start stop d).length = c.count ∧
      (c.identity = true → Spec.slice (data.take L) start stop d = data.take L) := by
  have hlo := hA.lo
  have hlen : (data.take L).length = L := by rw [List.length_take]; omega
  obtain ⟨n, hn, hnL, hc⟩ := slice_calc_eq A hA L d start stop (by omega) hd0 hs1 hs2 hoff hint
  refine ⟨_, hc, by simp only []; omega, ?_⟩
  have hsb := slice_start_bounds L d start (by omega) hd0
  have heb := slice_end_bounds L d stop (by omega) hd0
  have hpos : ∀ k : Nat, k < n → 0 ≤ sliceSpecStart L d start + k * d ∧ sliceSpecStart L d start + k * d < L := by
    intro k hk
    rw [hn] at hk
    rcases Int.lt_or_gt_of_ne hd0 with h | h
    · have h' : ¬ d > 0 := by omega
      simp only [h', if_false] at hk
      have : 0 ≤ (k : Int) * -d := Int.mul_nonneg (by omega) (by omega)
      rw [Int.mul_neg] at this
      have := hsb.2 h; have := heb.2 h
      omega
    · simp only [h, if_true] at hk
      have : 0 ≤ (k : Int) * d := Int.mul_nonneg (by omega) (by omega)
      have := hsb.1 h; have := heb.1 h
      omega
  have hidx : Spec.sliceIndices L start stop d = (List.range n).map fun k : Nat => (sliceSpecStart L d start + k * d).toNat := by
    rw [sliceSpec_indices]
    rcases Int.lt_or_gt_of_ne hd0 with h | h
    · have h' : ¬ d > 0 := by omega
      simp only [h', if_false] at hn ⊢
      exact bwd_indices _ _ _ _ (hsb.2 h).1 (heb.2 h).1 h n hn
    · simp only [h, if_true] at hn ⊢
      exact fwd_indices _ _ _ _ (hsb.1 h).1 (heb.1 h).1 h n hn
  have hspec : Spec.slice (data.take L) start stop d =
      (List.range n).filterMap fun k : Nat => data[(sliceSpecStart L d start + k * d).toNat]? := by
    unfold Spec.slice; rw [hlen, hidx, List.filterMap_map]
    rw [filterMap_congr_mem]
    intro k hk
    have := hpos k (List.mem_range.1 hk)
    show (data.take L)[(sliceSpecStart L d start + k * d).toNat]? = _
    exact List.getElem?_take_of_lt (by omega)
  have hslen : (Spec.slice (data.take L) start stop d).length = n := by
    rw [hspec, filterMap_all_length, List.length_range]
    intro k hk
    have := hpos k (List.mem_range.1 hk)
    rw [List.getElem?_eq_getElem (by omega)]; rfl
  refine ⟨?_, hslen, ?_⟩
  · simp only []
    rw [hspec]
    by_cases hn0 : n = 0
    · subst hn0; simp [sliceLoop]
    · have h0 := hpos 0 (by omega)
      simp only [Int.natCast_zero, Int.zero_mul, Int.add_zero] at h0
      have ht : A.toOff (sliceSpecStart L d start) = (sliceSpecStart L d start).toNat :=
        toOff_of_lt A _ h0.1 (by omega)
      have ht2 : (((sliceSpecStart L d start).toNat : Nat) : Int) = sliceSpecStart L d start := Int.toNat_of_nonneg h0.1
      rw [ht, sliceLoop_eq A data d hD n]
      · simp only [ht2]
      · intro k hk; rw [ht2]; have := hpos k hk; omega
  · intro hid
    simp only [decide_eq_true_eq] at hid
    have hnn : n = L := by omega
    rw [hspec, hnn, hid.1, hid.2.2]
    simp only [Int.zero_add, Int.mul_one, Int.toNat_natCast]
    rw [← slice_range_filterMap (data.take L), hlen]
    apply filterMap_congr_mem
    intro k hk
    exact (List.getElem?_take_of_lt (List.mem_range.1 hk)).symm

end Snek
