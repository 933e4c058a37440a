import Verif.Proofs.FsumGrow
/-! Adding up the partial sums. -/
set_option exponentiation.threshold 400
namespace Snek.Fsum
open Spec

/-! ## Insertion -/

/-- The partial sums in use. -/
def St.list (s : St) : List (BitVec 32) := s.ps.take s.n

theorem insert_eq {s : St} (h : s.n ≤ s.ps.length) (x : BitVec 32) :
    (insert s x).n ≤ (insert s x).ps.length ∧
    (insert s x).list = (lows s.list x).1 ++ if feq (lows s.list x).2 0 then [] else [floatToPoly (lows s.list x).2] := by
  obtain ⟨a, b, c, d, e⟩ := inner_eq s.n 0 0 x s.ps (Nat.le_refl 0) (by omega)
  simp only [List.drop_zero, Nat.zero_add, List.take_zero, List.nil_append] at a b c d e
  change (inner s.n 0 0 x s.ps).2.1 = (lows s.list x).1.length at a
  change (inner s.n 0 0 x s.ps).2.2 = (lows s.list x).2 at b
  change (inner s.n 0 0 x s.ps).1.take (lows s.list x).1.length = (lows s.list x).1 at c
  change (lows s.list x).1.length ≤ s.n at e
  unfold insert
  generalize inner s.n 0 0 x s.ps = R at *
  obtain ⟨ps, n, y⟩ := R
  simp only at a b c d
  subst b a
  simp only
  by_cases hz : feq (lows s.list x).2 0 = true
  · rw [if_pos hz, if_pos hz, List.append_nil]
    exact ⟨by simp only; omega, c⟩
  · rw [if_neg hz, if_neg hz]
    have key : ∀ qs : List (BitVec 32), (lows s.list x).1.length < qs.length → qs.take (lows s.list x).1.length = (lows s.list x).1 →
        (lows s.list x).1.length + 1 ≤ (putf qs (lows s.list x).1.length (lows s.list x).2).length ∧
        (putf qs (lows s.list x).1.length (lows s.list x).2).take ((lows s.list x).1.length + 1) =
          (lows s.list x).1 ++ [floatToPoly (lows s.list x).2] := by
      intro qs hq ht
      unfold putf
      refine ⟨by rw [List.length_set]; omega, ?_⟩
      rw [List.take_set, List.take_succ_eq_append_getElem hq, ht, List.set_append]
      rw [if_neg (by omega), Nat.sub_self]
      simp
    by_cases hm : (lows s.list x).1.length ≥ ps.length
    · rw [if_pos hm]
      refine key _ (by rw [List.length_append, List.length_replicate]; omega) ?_
      rw [List.take_append_of_le_length (by omega)]
      exact c
    · rw [if_neg hm]
      exact key _ (by omega) c

/-- The partial sums are numbers that do not overlap and have the sum `N`. -/
def Good (P : List (BitVec 32)) (N : Int) : Prop :=
  (∀ p ∈ P, isFin p = true) ∧ (∃ B, Ch 0 (P.map fval) B) ∧ (P.map fval).sum = N

/-- The last partial sum has overflown. -/
def Bad (P : List (BitVec 32)) : Prop := ∃ Q p, P = Q ++ [p] ∧ isFin p = false

theorem lt_pow {d : Int} (h : Rep d) : d.natAbs < 2 ^ 277 := by
  obtain ⟨_, _, _, _, h⟩ := h.out
  exact h

theorem Good.insert {s : St} (h : s.n ≤ s.ps.length) {N : Int} (g : Good s.list N) {x : BitVec 32} (hx : isFin x = true) :
    Good (insert s x).list (N + fval x) ∨ Bad (insert s x).list := by
  obtain ⟨_, e⟩ := insert_eq h x
  obtain ⟨g1, ⟨B, g2⟩, g3⟩ := g
  cases hf : isFin (lows s.list x).2 with
  | false =>
    right
    rw [feq_zero_bad hf] at e
    exact ⟨_, _, e, by rw [poly_fin']; exact hf⟩
  | true =>
    left
    obtain ⟨b', r1, r2, r3, r4⟩ := lows_spec (b := 0) hx g1 g2 ⟨fval x, by simp⟩ hf
    by_cases hz : feq (lows s.list x).2 0 = true
    · rw [if_pos hz, List.append_nil] at e
      rw [e]
      have := (feq_zero hf).1 hz
      exact ⟨r3, ⟨b', r1⟩, by omega⟩
    · rw [if_neg hz, poly_fin hf] at e
      rw [e]
      have hv : fval (lows s.list x).2 ≠ 0 := fun h => hz ((feq_zero hf).2 h)
      have hlt := lt_pow (rep_fin hf)
      refine ⟨?_, ⟨277, ?_⟩, ?_⟩
      · intro p hp
        rcases List.mem_append.1 hp with hp | hp
        · exact r3 p hp
        · rw [List.mem_singleton.1 hp]
          exact hf
      · rw [List.map_append]
        exact r1.append ⟨hv, r2, 277, hlt, Nat.le_refl _⟩
      · rw [List.map_append, List.sum_append]
        simp only [List.map_cons, List.map_nil, List.sum_cons, List.sum_nil]
        omega

theorem Bad.insert {s : St} (h : s.n ≤ s.ps.length) (g : Bad s.list) (x : BitVec 32) : Bad (insert s x).list := by
  obtain ⟨_, e⟩ := insert_eq h x
  obtain ⟨Q, p, hq, hp⟩ := g
  have hf : isFin (lows s.list x).2 = false := lows_bad (.inr ⟨p, by rw [hq]; simp, hp⟩)
  rw [feq_zero_bad hf] at e
  exact ⟨_, _, e, by rw [poly_fin']; exact hf⟩

theorem fold_spec : ∀ {xs : List (BitVec 32)} {s : St} {N : Int}, s.n ≤ s.ps.length → (Good s.list N ∨ Bad s.list) →
    (∀ x ∈ xs, isFin x = true) →
    (xs.foldl Fsum.insert s).n ≤ (xs.foldl Fsum.insert s).ps.length ∧
    (Good (xs.foldl Fsum.insert s).list (N + (xs.map fval).sum) ∨ Bad (xs.foldl Fsum.insert s).list)
  | [], _, _, h, g, _ => ⟨h, by simpa using g⟩
  | x :: xs, s, N, h, g, hx => by
    have h1 := (insert_eq h x).1
    have g1 : Good (Fsum.insert s x).list (N + fval x) ∨ Bad (Fsum.insert s x).list := by
      rcases g with g | g
      · exact g.insert h (hx x List.mem_cons_self)
      · exact .inr (g.insert h x)
    have := fold_spec h1 g1 fun y hy => hx y (List.mem_cons_of_mem _ hy)
    rw [List.foldl_cons, List.map_cons, List.sum_cons, ← Int.add_assoc]
    exact this

/-! ## The final addition -/

theorem getf_take {ps : List (BitVec 32)} {n k : Nat} (h : k < n) : getf (ps.take n) k = getf ps k := by
  unfold getf
  rw [List.getElem?_take_of_lt h]

theorem top_take (ps : List (BitVec 32)) (m : Nat) : ∀ n hi lo, n ≤ m → top (ps.take m) n hi lo = top ps n hi lo
  | 0, _, _, _ => rfl
  | n + 1, hi, lo, h => by
    rw [top, top, getf_take (by omega)]
    rw [top_take ps m n _ _ (by omega)]

theorem finish_list {s : St} (h : s.n ≤ s.ps.length) : finish s = finish ⟨s.list, s.list.length⟩ := by
  have hl : s.list.length = s.n := by unfold St.list; rw [List.length_take]; omega
  unfold finish
  simp only
  rw [hl]
  cases hn : s.n with
  | zero => rfl
  | succ n =>
    simp only
    have hs : s.list = s.ps.take (n + 1) := by unfold St.list; rw [hn]
    rw [hs, top_take _ _ _ _ _ (by omega), getf_take (by omega)]
    generalize hR : top s.ps n (getf s.ps n) 0 = R
    have hle : ∀ n hi lo, (top s.ps n hi lo).1 ≤ n := by
      intro n
      induction n with
      | zero => intro hi lo; exact Nat.le_refl _
      | succ n ih =>
        intro hi lo
        rw [top]
        split
        · exact Nat.le_trans (ih _ _) (by omega)
        · exact Nat.le_succ n
    have hb := hle n (getf s.ps n) 0
    rw [hR] at hb
    obtain ⟨n', hi, lo⟩ := R
    simp only at hb ⊢
    rw [getf_take (by omega)]

theorem take_succ_getf {P : List (BitVec 32)} {n : Nat} (h : n < P.length) : P.take (n + 1) = P.take n ++ [getf P n] := by
  unfold getf
  rw [List.take_succ_eq_append_getElem h, List.getElem?_eq_getElem h]
  rfl

theorem top_bad {P : List (BitVec 32)} : ∀ {n : Nat} {hi lo : BitVec 32}, isFin hi = false → isFin (top P n hi lo).2.1 = false
  | 0, _, _, h => h
  | n + 1, hi, lo, h => by
    rw [top]
    split
    · exact top_bad (fadd_bad (.inl h))
    · exact fadd_bad (.inl h)

theorem nearest_fadd {a b : BitVec 32} (ha : isFin a = true) (hb : isFin b = true) (hr : isFin (fadd a b) = true) :
    Nearest (fadd a b) (fval a + fval b) 1 := by
  have hE := fadd_fin ha hb
  by_cases h0 : fval a + fval b = 0
  · rw [if_pos h0] at hE
    rw [hE, h0]
    exact (rounded_zero _ 1 (by decide)).1 (by decide)
  · rw [if_neg h0] at hE
    obtain ⟨h1, h2⟩ := rounded_fround _ h0
    rw [hE] at hr ⊢
    refine h1 ?_
    apply Decidable.byContradiction
    intro hc
    rw [h2 (by omega)] at hr
    revert hr
    split <;> decide

/-- Either everything was added without an error, or the last sum `s` was rounded. -/
theorem top_spec {P : List (BitVec 32)} (hP : ∀ p ∈ P, isFin p = true) : ∀ {n : Nat} {hi lo : BitVec 32} {b : Nat}, n ≤ P.length →
    isFin hi = true → fval hi ≠ 0 → Ch 0 ((P.take n).map fval) b → ((2 ^ b : Nat) : Int) ∣ fval hi → isFin (top P n hi lo).2.1 = true →
    ((top P n hi lo).1 = 0 ∧ fval (top P n hi lo).2.1 = fval hi + ((P.take n).map fval).sum) ∨
    ∃ s e b', (top P n hi lo).1 < P.length ∧ Nearest (top P n hi lo).2.1 s 1 ∧ Grid s (fval (top P n hi lo).2.1) e ∧ isFin (top P n hi lo).2.2 = true ∧
      fval (top P n hi lo).2.2 = s - fval (top P n hi lo).2.1 ∧ fval (top P n hi lo).2.2 ≠ 0 ∧ ((2 ^ b' : Nat) : Int) ∣ s ∧
      Ch 0 ((P.take (top P n hi lo).1).map fval) b' ∧
      s + ((P.take (top P n hi lo).1).map fval).sum = fval hi + ((P.take n).map fval).sum
  | 0, hi, lo, b, _, _, _, _, _, _ => .inl ⟨rfl, by simp [top]⟩
  | n + 1, hi, lo, b, hn, hf, h0, hc, hd, hr => by
    have hyf : isFin (getf P n) = true := by
      refine hP _ ?_
      have := take_succ_getf (show n < P.length by omega)
      exact List.mem_of_mem_take (i := n + 1) (by rw [this]; simp)
    rw [take_succ_getf (show n < P.length by omega)] at hc ⊢
    rw [List.map_append, List.map_cons, List.map_nil] at hc ⊢
    rw [List.sum_append, List.sum_cons, List.sum_nil]
    obtain ⟨c, c1, c2, c3, c4⟩ := hc.unsnoc
    have hcb := exp_le c3 c2 c4
    have hge := dvd_le h0 hd
    have hds : ((2 ^ c : Nat) : Int) ∣ fval hi + fval (getf P n) := Int.dvd_add (Int.dvd_trans (pow_dvd hcb) hd) c2
    have hh : isFin (fadd hi (getf P n)) = true := by
      cases hh : isFin (fadd hi (getf P n)) with
      | true => rfl
      | false =>
        have : isFin (top P (n + 1) hi lo).2.1 = false := by
          rw [top]
          split
          · exact top_bad hh
          · exact hh
        rw [this] at hr
        cases hr
    obtain ⟨l1, l2, e, g⟩ := fast_two hf hyf (by omega) hh
    have hT : top P (n + 1) hi lo = if feq (fsub (getf P n) (fsub (fadd hi (getf P n)) hi)) 0 = true
        then top P n (fadd hi (getf P n)) (fsub (getf P n) (fsub (fadd hi (getf P n)) hi))
        else (n, fadd hi (getf P n), fsub (getf P n) (fsub (fadd hi (getf P n)) hi)) := by rw [top]
    rw [hT] at hr ⊢
    by_cases hz : feq (fsub (getf P n) (fsub (fadd hi (getf P n)) hi)) 0 = true
    · rw [if_pos hz] at hr ⊢
      have hv := (feq_zero l1).1 hz
      have hs : fval (fadd hi (getf P n)) = fval hi + fval (getf P n) := by omega
      have := top_spec hP (n := n) (by omega) hh (by omega) c1 (hs ▸ hds) hr
      rw [hs] at this
      have ee : fval hi + (((P.take n).map fval).sum + (fval (getf P n) + 0)) = fval hi + fval (getf P n) + ((P.take n).map fval).sum := by omega
      rw [ee]
      exact this
    · rw [if_neg hz] at hr ⊢
      have hv : fval (fsub (getf P n) (fsub (fadd hi (getf P n)) hi)) ≠ 0 := fun h => hz ((feq_zero l1).2 h)
      exact .inr ⟨_, e, c, by simp only; omega, nearest_fadd hf hyf hh, g, l1, l2, hv, hds, c1, by simp only; omega⟩

/-- A multiple of the last place that is closer than half of it is the nearest number. -/
theorem near_grid {N W : Int} {e : Nat} (hW : ((2 ^ e : Nat) : Int) ∣ W) (hn : 2 * (N - W).natAbs < 2 ^ e)
    (hN : 2 ^ 23 * 2 ^ e ≤ N.natAbs) {v : Int} (hv : Rep v) : v = W ∨ (W - N).natAbs < (v - N).natAbs := by
  by_cases hvW : v = W
  · exact .inl hvW
  right
  have far : ∀ g : Int, ((2 ^ e : Nat) : Int) ∣ g → g ≠ W → (W - N).natAbs < (g - N).natAbs := by
    intro g hg hne
    have := dvd_le (p := g - W) (by omega) (Int.dvd_sub hg hW)
    omega
  by_cases hd : ((2 ^ e : Nat) : Int) ∣ v
  · exact far v hd hvW
  · obtain ⟨k, _, k1, k2, _⟩ := hv.out
    have hke : k < e := by
      apply Decidable.byContradiction
      intro h
      exact hd (Int.dvd_trans (pow_dvd (by omega)) k1)
    have h2 : 2 ^ (k + 1) ≤ 2 ^ e := Nat.pow_le_pow_right (by decide) (by omega)
    rw [Nat.pow_succ] at h2
    have hp := pow_pos2 k
    have hvs : v.natAbs < 2 ^ 23 * 2 ^ e := by omega
    -- the power of two between `v` and `N`
    have hg : ∃ g : Int, ((2 ^ e : Nat) : Int) ∣ g ∧ g.natAbs = 2 ^ 23 * 2 ^ e ∧ (0 ≤ N ↔ 0 ≤ g) := by
      by_cases h0 : 0 ≤ N
      · exact ⟨((2 ^ 23 * 2 ^ e : Nat) : Int), abs_dvd (m := 2 ^ 23) (Int.natAbs_natCast _), Int.natAbs_natCast _, by omega⟩
      · refine ⟨-((2 ^ 23 * 2 ^ e : Nat) : Int), abs_dvd (m := 2 ^ 23) (by rw [Int.natAbs_neg, Int.natAbs_natCast]), by rw [Int.natAbs_neg, Int.natAbs_natCast], ?_⟩
        have := pow_pos2 e
        omega
    obtain ⟨g, g1, g2, g3⟩ := hg
    have hlt : (g - N).natAbs < (v - N).natAbs := by omega
    by_cases hgW : g = W
    · rw [← hgW]; exact hlt
    · exact Nat.lt_trans (far g g1 hgW) hlt

theorem nearest_of {w : BitVec 32} {N : Int} (hw : isFin w = true)
    (h : ∀ v, Rep v → v = fval w ∨ (fval w - N).natAbs < (v - N).natAbs) : Nearest w N 1 := by
  refine ⟨by simpa [isFin] using hw, fun v hv => ?_⟩
  rw [fval_eq_spec, fval_eq_spec]
  have := h (fval v) (rep_fin (by simpa [isFin] using hv))
  simp only [Int.natCast_one, Int.mul_one]
  rcases this with h | h
  · rw [h]
    exact ⟨Nat.le_refl _, fun _ => .inl rfl⟩
  · exact ⟨by omega, fun h => by omega⟩

theorem mult_gap {b e : Nat} {l : Int} (hbe : b ≤ e) (hl : ((2 ^ b : Nat) : Int) ∣ l) (h : l.natAbs < 2 ^ e) : l.natAbs + 2 ^ b ≤ 2 ^ e := by
  obtain ⟨m, hm⟩ := dvd_abs hl
  obtain ⟨j, rfl⟩ := Nat.exists_eq_add_of_le hbe
  rw [hm, Nat.pow_add, Nat.mul_comm (2 ^ b)] at h ⊢
  have := Nat.lt_of_mul_lt_mul_right h
  have : (m + 1) * 2 ^ b ≤ 2 ^ j * 2 ^ b := Nat.mul_le_mul_right _ this
  rw [Nat.add_mul] at this
  omega

theorem two_rep {l : Int} (h : Rep l) {e : Nat} (he : e ≤ 253) (hl : 2 * l.natAbs ≤ 2 ^ e) : Rep (2 * l) := by
  obtain ⟨k, _, k1, k2, _⟩ := h.out
  refine Rep.mk (k := k + 1) ?_ ?_ ?_
  · obtain ⟨c, rfl⟩ := k1
    exact ⟨c, by rw [Nat.pow_succ, Int.natCast_mul]; show 2 * _ = _ * 2 * c; ac_rfl⟩
  · rw [Nat.pow_succ]; omega
  · have h1 : 2 ^ e ≤ 2 ^ 253 := Nat.pow_le_pow_right (by decide) he
    have h2 : 2 ^ 253 < 2 ^ 277 := by decide +kernel
    generalize 2 ^ 253 = A at *
    generalize 2 ^ 277 = B at *
    omega

/-- The last step, snek-math.c:146-153: `s` has been rounded to `hi`, the error is `lo`, and `r` remains. -/
theorem fix_spec {s r : Int} {e b : Nat} {hi lo : BitVec 32} {up : Bool} (hf : isFin hi = true) (lf : isFin lo = true)
    (g : Grid s (fval hi) e) (hl : fval lo = s - fval hi) (hl0 : fval lo ≠ 0) (hb : ((2 ^ b : Nat) : Int) ∣ s)
    (hr : r.natAbs < 2 ^ b) (hup : up = true ↔ (fval lo < 0 ∧ r < 0) ∨ (0 < fval lo ∧ 0 < r)) (hr0 : r ≠ 0) :
    Nearest (if up then if feq (fmul lo (intToF 2)) (fsub (fadd hi (fmul lo (intToF 2))) hi) then fadd hi (fmul lo (intToF 2)) else hi
      else hi) (s + r) 1 := by
  have hnd : ¬ ((2 ^ e : Nat) : Int) ∣ s := fun h => hl0 (by have := g.exact_of_dvd h; omega)
  have hbe : b < e := by
    apply Decidable.byContradiction
    intro h
    exact hnd (Int.dvd_trans (pow_dvd (by omega)) hb)
  obtain ⟨e', rfl⟩ : ∃ e', e = e' + 1 := ⟨e - 1, by omega⟩
  have hlo : 2 ^ 23 * 2 ^ (e' + 1) ≤ s.natAbs := g.lo.resolve_left (by omega)
  have hdl : ((2 ^ b : Nat) : Int) ∣ fval lo := by rw [hl]; exact Int.dvd_sub hb (g.mult hb)
  have hbl := dvd_le hl0 hdl
  have herr := g.err
  have hhi := g.hi
  rw [← hl] at herr
  have hpe := pow_pos2 e'
  have hpb := pow_pos2 b
  have hE : 2 ^ (e' + 1) = 2 * 2 ^ e' := by rw [Nat.pow_succ]; omega
  -- the sum is inside of the range of its last place
  have hN : 2 ^ 23 * 2 ^ (e' + 1) + 2 ^ b ≤ s.natAbs := by
    have h1 : ((2 ^ b : Nat) : Int) ∣ ((s.natAbs : Int) - ((2 ^ 23 * 2 ^ (e' + 1) : Nat) : Int)) := by
      refine Int.dvd_sub (Int.dvd_natAbs.2 hb) ?_
      refine Int.natCast_dvd_natCast.2 (Nat.dvd_trans (Nat.pow_dvd_pow 2 (Nat.le_of_lt hbe)) ⟨2 ^ 23, Nat.mul_comm _ _⟩)
    have h2 : (s.natAbs : Int) - ((2 ^ 23 * 2 ^ (e' + 1) : Nat) : Int) ≠ 0 := by
      intro h
      exact hnd (abs_dvd (m := 2 ^ 23) (by omega))
    have := dvd_le h2 h1
    omega
  have hNr : 2 ^ 23 * 2 ^ (e' + 1) ≤ (s + r).natAbs := by omega
  have hhib : 2 ^ 23 * 2 ^ (e' + 1) ≤ (fval hi).natAbs := by
    obtain ⟨m, hm⟩ := dvd_abs g.dvd
    rw [hm]
    apply Nat.mul_le_mul_right
    apply Decidable.byContradiction
    intro h
    have : (m + 1) * 2 ^ (e' + 1) ≤ 2 ^ 23 * 2 ^ (e' + 1) := Nat.mul_le_mul_right _ (by omega)
    rw [Nat.add_mul, ← hm] at this
    omega
  -- `hi` is right
  have keep : 2 * (fval lo + r).natAbs < 2 ^ (e' + 1) → Nearest hi (s + r) 1 := fun h =>
    nearest_of hf fun v hv => near_grid g.dvd (by rw [show s + r - fval hi = fval lo + r by omega]; exact h) hNr hv
  cases hu : up with
  | false =>
    simp only [Bool.false_eq_true, if_false]
    have : ¬ ((fval lo < 0 ∧ r < 0) ∨ (0 < fval lo ∧ 0 < r)) := fun h => by rw [hup.2 h] at hu; cases hu
    exact keep (by omega)
  | true =>
    simp only [if_true]
    have hsame := hup.1 hu
    obtain ⟨y1, y2⟩ := fmul_two lf (two_rep (rep_fin lf) g.le (by omega))
    by_cases ht : 2 * (fval lo).natAbs = 2 ^ (e' + 1)
    · -- a tie: the other neighbour
      have heven := g.even (by rw [← hl]; exact ht)
      have hd2 : ((2 ^ (e' + 1) : Nat) : Int) ∣ 2 * fval lo := abs_dvd (m := 1) (by omega)
      have hd : ((2 ^ (e' + 1) : Nat) : Int) ∣ fval hi + 2 * fval lo := Int.dvd_add g.dvd hd2
      have hle : (fval hi + 2 * fval lo).natAbs ≤ 2 ^ 24 * 2 ^ (e' + 1) := by
        obtain ⟨m, hm⟩ := dvd_abs hd
        have h1 : (fval hi + 2 * fval lo).natAbs < (2 ^ 24 + 1) * 2 ^ (e' + 1) := by
          rw [Nat.add_mul]; omega
        rw [hm] at h1 ⊢
        apply Nat.mul_le_mul_right
        have := Nat.lt_of_mul_lt_mul_right h1
        omega
      have hrep : Rep (fval hi + 2 * fval lo) := by
        refine Rep.mk hd hle ?_
        apply Decidable.byContradiction
        intro hge
        have hle2 : 2 ^ 24 * 2 ^ (e' + 1) ≤ 2 ^ 277 := by
          rw [← Nat.pow_add]
          exact Nat.pow_le_pow_right (by decide) (by have := g.le; omega)
        have heq : (fval hi + 2 * fval lo).natAbs = 2 ^ 277 := by omega
        have h277 : ((2 ^ (e' + 1 + 1) : Nat) : Int) ∣ fval hi + 2 * fval lo := by
          have : ((2 ^ (e' + 1 + 1) : Nat) : Int) ∣ ((2 ^ 277 : Nat) : Int) := pow_dvd (by have := g.le; omega)
          exact Int.ofNat_dvd_left.2 (by rw [heq]; exact Int.natCast_dvd_natCast.1 this)
        have h3 : ((2 ^ (e' + 1 + 1) : Nat) : Int) ∣ 2 * fval lo := by
          have := Int.dvd_sub h277 heven
          rw [show fval hi + 2 * fval lo - fval hi = 2 * fval lo by omega] at this
          exact this
        have := dvd_le (by omega) h3
        rw [Nat.pow_succ 2 (e' + 1)] at this
        omega
      obtain ⟨x1, x2⟩ := fadd_exact hf y1 (by rw [y2]; exact hrep)
      rw [y2] at x2
      have e2 : fval (fadd hi (fmul lo (intToF 2))) - fval hi = 2 * fval lo := by rw [x2]; omega
      obtain ⟨z1, z2⟩ := fsub_exact x1 hf (by rw [e2, ← y2]; exact rep_fin y1)
      rw [if_pos ((feq_val y1 z1).2 (by rw [z2, e2, y2]))]
      refine nearest_of x1 fun v hv => near_grid (e := e' + 1) (by rw [x2]; exact hd) ?_ hNr hv
      rw [x2]
      omega
    · -- no tie: the test fails
      have hgap := mult_gap (e := e') (by omega) hdl (by omega)
      have hno : ¬ Rep (fval hi + 2 * fval lo) := by
        intro hrep
        obtain ⟨k, _, k1, k2, _⟩ := hrep.out
        have hmag : 2 ^ 23 * 2 ^ (e' + 1) ≤ (fval hi + 2 * fval lo).natAbs := by
          obtain ⟨m, hm⟩ := dvd_abs g.dvd
          by_cases hm2 : m ≤ 2 ^ 23
          · have := Nat.mul_le_mul_right (2 ^ (e' + 1)) hm2
            omega
          · have : (2 ^ 23 + 1) * 2 ^ (e' + 1) ≤ m * 2 ^ (e' + 1) := Nat.mul_le_mul_right _ (by omega)
            rw [Nat.add_mul, ← hm] at this
            omega
        have hke : e' + 1 ≤ k := by
          apply Decidable.byContradiction
          intro h
          have : 2 ^ k ≤ 2 ^ e' := Nat.pow_le_pow_right (by decide) (by omega)
          omega
        have h1 := Int.dvd_sub (Int.dvd_trans (pow_dvd hke) k1) g.dvd
        rw [show fval hi + 2 * fval lo - fval hi = 2 * fval lo by omega] at h1
        have := dvd_le (by omega) h1
        omega
      have hne : feq (fmul lo (intToF 2)) (fsub (fadd hi (fmul lo (intToF 2))) hi) = false := by
        cases hx : isFin (fadd hi (fmul lo (intToF 2))) with
        | false => exact feq_bad y1 (fadd_bad (.inl hx))
        | true =>
          obtain ⟨e2, g2⟩ := grid_fadd hf y1 hx
          obtain ⟨z1, z2⟩ := fsub_exact hx hf (diff_rep (rep_fin hf) (rep_fin y1) (by rw [y2]; omega) g2)
          cases hq : feq (fmul lo (intToF 2)) (fsub (fadd hi (fmul lo (intToF 2))) hi) with
          | false => rfl
          | true =>
            have := (feq_val y1 z1).1 hq
            rw [z2, y2] at this
            exact absurd (rep_fin hx) (by rw [show fval (fadd hi (fmul lo (intToF 2))) = fval hi + 2 * fval lo by omega]; exact hno)
      rw [if_neg (by rw [hne]; decide)]
      exact keep (by omega)

/-- `finish` on the partial sums. -/
theorem finish_hi {P : List (BitVec 32)} {N : Int} (h : Good P N) (hf : ∀ Q p, P = Q ++ [p] → isFin (top P Q.length p 0).2.1 = true) :
    Nearest (finish ⟨P, P.length⟩) N 1 := by
  obtain ⟨g1, ⟨B, g2⟩, g3⟩ := h
  rcases List.eq_nil_or_concat P with rfl | ⟨Q, p, rfl⟩
  · have : N = 0 := by rw [← g3]; rfl
    rw [this]
    exact (rounded_zero false 1 (by decide)).1 (by decide)
  rw [List.concat_eq_append] at *
  have hhf := hf Q p rfl
  clear hf
  generalize hPQ : Q ++ [p] = P at *
  have hlen : P.length = Q.length + 1 := by rw [← hPQ]; simp
  have hget : getf P Q.length = p := by unfold getf; rw [← hPQ]; simp
  have htake : P.take Q.length = Q := by rw [← hPQ]; simp
  have hpf : isFin p = true := g1 p (by rw [← hPQ]; simp)
  rw [← hPQ, List.map_append] at g2 g3
  rw [List.sum_append] at g3
  simp only [List.map_cons, List.map_nil, List.sum_cons, List.sum_nil] at g2 g3
  obtain ⟨c, c1, c2, c3, c4⟩ := g2.unsnoc
  unfold finish
  simp only [hlen, hget]
  have hts := top_spec g1 (n := Q.length) (hi := p) (lo := 0) (by omega) hpf c3 (by rw [htake]; exact c1) c2 hhf
  rw [htake] at hts
  generalize top P Q.length p 0 = R at *
  obtain ⟨n, hi, lo⟩ := R
  simp only at hts hhf ⊢
  rcases hts with ⟨rfl, hv⟩ | ⟨s, e, b, hn, hnear, g, lf, hl, hl0, hb, hch, hsum⟩
  · rw [if_neg (by omega)]
    refine nearest_of hhf fun v _ => ?_
    omega
  · cases n with
    | zero =>
      rw [if_neg (by omega)]
      simp only [List.take_zero, List.map_nil, List.sum_nil, Int.add_zero] at hsum
      rw [show N = s by omega]
      exact hnear
    | succ n =>
      rw [Nat.add_sub_cancel]
      have hqf : isFin (getf P n) = true := by
        refine g1 _ (List.mem_of_mem_take (i := n + 1) ?_)
        rw [take_succ_getf (by omega)]
        simp
      rw [take_succ_getf (by omega), List.map_append] at hch hsum
      rw [List.sum_append] at hsum
      simp only [List.map_cons, List.map_nil, List.sum_cons, List.sum_nil] at hch hsum
      have hs1 := hch.sum
      rw [List.sum_append] at hs1
      simp only [List.sum_cons, List.sum_nil] at hs1
      obtain ⟨d, d1, d2, d3, d4⟩ := hch.unsnoc
      have hs2 := d1.sum
      have hd := dvd_le d3 d2
      have hp := pow_pos2 0
      rw [show N = s + (((P.take n).map fval).sum + (fval (getf P n) + 0)) by omega]
      generalize ((P.take n).map fval).sum = ρ at *
      have hlt := fltF_val lf (b := 0) (by decide)
      have hlt' := fltF_val (a := 0) (by decide) lf
      have hgt := fltF_val hqf (b := 0) (by decide)
      have hgt' := fltF_val (a := 0) (by decide) hqf
      rw [show fval 0 = 0 by decide] at hlt hlt' hgt hgt'
      have := fix_spec (up := decide (0 < n + 1 ∧ ((fltF lo 0 = true ∧ fltF (getf P n) 0 = true) ∨ (fltF 0 lo = true ∧ fltF 0 (getf P n) = true))))
        (r := ρ + (fval (getf P n) + 0)) hhf lf g hl hl0 hb (by omega) (by
          rw [decide_eq_true_eq, hlt, hlt', hgt, hgt']
          omega) (by omega)
      simp only [decide_eq_true_eq] at this
      exact this

theorem finish_spec {P : List (BitVec 32)} {N : Int} (h : Good P N) (hf : isFin (finish ⟨P, P.length⟩) = true) :
    Nearest (finish ⟨P, P.length⟩) N 1 := by
  refine finish_hi h ?_
  rintro Q p rfl
  have hlen : (Q ++ [p]).length = Q.length + 1 := by simp
  have hget : getf (Q ++ [p]) Q.length = p := by unfold getf; simp
  unfold finish at hf
  simp only [hlen, hget] at hf
  cases hh : isFin (top (Q ++ [p]) Q.length p 0).2.1 with
  | true => rfl
  | false =>
    exfalso
    revert hf
    split
    · split
      · rw [fadd_bad (.inl hh)]; decide
      · rw [hh]; decide
    · rw [hh]; decide

theorem finish_bad {P : List (BitVec 32)} (h : Bad P) : isFin (finish ⟨P, P.length⟩) = false := by
  obtain ⟨Q, p, rfl, hp⟩ := h
  unfold finish
  have hlen : (Q ++ [p]).length = Q.length + 1 := by simp
  have hget : getf (Q ++ [p]) Q.length = p := by unfold getf; simp
  simp only [hlen, hget]
  have hh := top_bad (P := Q ++ [p]) (n := Q.length) (lo := 0) hp
  generalize top (Q ++ [p]) Q.length p 0 = R at *
  obtain ⟨n, hi, lo⟩ := R
  simp only at hh ⊢
  split
  · split
    · exact fadd_bad (.inl hh)
    · exact hh
  · exact hh

/-! ## Nothing overflows when the numbers are not too large -/

/-- The sum of the magnitudes. -/
def mags (P : List (BitVec 32)) : Nat := (P.map fun p => (fval p).natAbs).sum

theorem mags_cons (p : BitVec 32) (P : List (BitVec 32)) : mags (p :: P) = (fval p).natAbs + mags P := rfl

theorem mags_append (P Q : List (BitVec 32)) : mags (P ++ Q) = mags P + mags Q := by
  unfold mags; rw [List.map_append, List.sum_append]

theorem fadd_lt {a b : BitVec 32} (ha : isFin a = true) (hb : isFin b = true) (h : (fval a + fval b).natAbs ≤ 2 ^ 276) :
    isFin (fadd a b) = true ∧ (fval (fadd a b)).natAbs + (fval a + fval b - fval (fadd a b)).natAbs ≤ (fval a + fval b).natAbs + 2 ^ 253 := by
  have hf : isFin (fadd a b) = true := by
    have hE := fadd_fin ha hb
    by_cases h0 : fval a + fval b = 0
    · rw [if_pos h0] at hE
      rw [hE]
      cases fneg a && fneg b <;> decide
    · rw [if_neg h0] at hE
      rw [hE]
      have := ((rounded_fround _ h0).1 (by
        have : 2 * 2 ^ 276 < (2 ^ 24 - 1) * 2 ^ 253 + 2 ^ 277 := by decide +kernel
        omega)).1
      simpa [isFin] using this
  obtain ⟨e, g⟩ := grid_fadd ha hb hf
  have h1 := g.err
  have h2 : 2 ^ e ≤ 2 ^ 253 := Nat.pow_le_pow_right (by decide) g.le
  generalize 2 ^ 253 = A at *
  exact ⟨hf, by omega⟩

theorem ord_sum (x y : BitVec 32) : ((ord x y).1 = x ∧ (ord x y).2 = y) ∨ ((ord x y).1 = y ∧ (ord x y).2 = x) := by
  unfold ord; split <;> simp

theorem hiOf_lt {x y : BitVec 32} (ha : isFin x = true) (hb : isFin y = true) (h : (fval x + fval y).natAbs ≤ 2 ^ 276) :
    isFin (hiOf x y) = true ∧ (fval (hiOf x y)).natAbs + (fval x + fval y - fval (hiOf x y)).natAbs ≤ (fval x + fval y).natAbs + 2 ^ 253 := by
  unfold hiOf
  rcases ord_sum x y with ⟨h1, h2⟩ | ⟨h1, h2⟩ <;> rw [h1, h2]
  · exact fadd_lt ha hb h
  · rw [Int.add_comm (fval x)] at *
    exact fadd_lt hb ha h

theorem lows_lt : ∀ {ps : List (BitVec 32)} {x : BitVec 32}, isFin x = true → (∀ y ∈ ps, isFin y = true) →
    (fval x).natAbs + mags ps + ps.length * 2 ^ 253 ≤ 2 ^ 276 →
    isFin (lows ps x).2 = true ∧ mags (lows ps x).1 + (fval (lows ps x).2).natAbs ≤ (fval x).natAbs + mags ps + ps.length * 2 ^ 253
  | [], x, hx, _, _ => ⟨hx, by simp [lows, mags]⟩
  | y :: ps, x, hx, hp, h => by
    have hy := hp y List.mem_cons_self
    have hp' : ∀ z ∈ ps, isFin z = true := fun z hz => hp z (List.mem_cons_of_mem _ hz)
    rw [mags_cons, List.length_cons, Nat.add_mul, Nat.one_mul] at h ⊢
    obtain ⟨h1, h2⟩ := hiOf_lt hx hy (by
      generalize 2 ^ 253 = A at *
      generalize 2 ^ 276 = B at *
      omega)
    obtain ⟨l1, l2, _⟩ := two_sum hx hy h1
    rw [← l2] at h2
    obtain ⟨i1, i2⟩ := lows_lt h1 hp' (by
      generalize 2 ^ 253 = A at *
      generalize 2 ^ 276 = B at *
      omega)
    simp only [lows]
    split
    · exact ⟨i1, by
        generalize 2 ^ 253 = A at *
        omega⟩
    · refine ⟨i1, ?_⟩
      simp only
      rw [mags_cons, poly_fin l1]
      generalize 2 ^ 253 = A at *
      omega

theorem Ch.length : ∀ {P a b}, Ch a P b → a + P.length ≤ b
  | [], _, _, h => h
  | _ :: _, a, _, ⟨h0, hd, c, hl, h⟩ => by
    have := h.length
    have h1 := dvd_le h0 hd
    have : a < c := by
      apply Decidable.byContradiction
      intro hn
      have := Nat.pow_le_pow_right (n := 2) (by decide) (show c ≤ a by omega)
      omega
    rw [List.length_cons]
    omega

/-- There are at most 277 partial sums. -/
theorem Good.length {P : List (BitVec 32)} {N : Int} (h : Good P N) : P.length ≤ 277 := by
  obtain ⟨g1, ⟨B, g2⟩, _⟩ := h
  rcases List.eq_nil_or_concat P with rfl | ⟨Q, p, rfl⟩
  · simp
  · rw [List.concat_eq_append] at *
    rw [List.map_append] at g2
    obtain ⟨c, c1, c2, c3, _⟩ := g2.unsnoc
    have := c1.length
    have hlt := lt_pow (rep_fin (g1 p (by simp)))
    have hd := dvd_le c3 c2
    have : c < 277 := by
      apply Decidable.byContradiction
      intro hn
      have := Nat.pow_le_pow_right (n := 2) (by decide) (show 277 ≤ c by omega)
      omega
    rw [List.length_append]
    simp only [List.length_map, List.length_cons, List.length_nil] at *
    omega

theorem insert_lt {s : St} (h : s.n ≤ s.ps.length) {N : Int} (g : Good s.list N) {x : BitVec 32} (hx : isFin x = true)
    (hm : mags s.list + (fval x).natAbs + 277 * 2 ^ 253 ≤ 2 ^ 276) :
    Good (insert s x).list (N + fval x) ∧ mags (insert s x).list ≤ mags s.list + (fval x).natAbs + 277 * 2 ^ 253 := by
  have hl : s.list.length * 2 ^ 253 ≤ 277 * 2 ^ 253 := Nat.mul_le_mul_right _ g.length
  obtain ⟨l1, l2⟩ := lows_lt hx g.1 (by
    generalize 2 ^ 253 = A at *
    generalize 2 ^ 276 = B at *
    omega)
  obtain ⟨_, e⟩ := insert_eq h x
  constructor
  · rcases g.insert h hx with hg | ⟨Q, p, hq, hp⟩
    · exact hg
    · exfalso
      obtain ⟨b', _, _, r3, _⟩ := lows_spec (b := 0) hx g.1 g.2.1.choose_spec ⟨fval x, by simp⟩ l1
      have hmem : p ∈ (insert s x).list := by rw [hq]; simp
      rw [e] at hmem
      rcases List.mem_append.1 hmem with hm | hm
      · rw [r3 p hm] at hp; cases hp
      · split at hm
        · cases hm
        · rw [List.mem_singleton.1 hm, poly_fin l1, l1] at hp
          cases hp
  · rw [e, mags_append]
    have : mags (if feq (lows s.list x).2 0 = true then [] else [floatToPoly (lows s.list x).2]) ≤ (fval (lows s.list x).2).natAbs := by
      split
      · exact Nat.zero_le _
      · rw [poly_fin l1]; simp [mags]
    generalize 2 ^ 253 = A at *
    omega

theorem fold_lt {A : Nat} (hA : 277 * 2 ^ 253 = A) : ∀ {xs : List (BitVec 32)} {s : St} {N : Int}, s.n ≤ s.ps.length → Good s.list N →
    (∀ x ∈ xs, isFin x = true) → mags s.list + mags xs + xs.length * A ≤ 2 ^ 276 →
    (xs.foldl Fsum.insert s).n ≤ (xs.foldl Fsum.insert s).ps.length ∧
    Good (xs.foldl Fsum.insert s).list (N + (xs.map fval).sum) ∧
    mags (xs.foldl Fsum.insert s).list ≤ mags s.list + mags xs + xs.length * A
  | [], _, _, h, g, _, _ => ⟨h, by simpa using g, by simp [mags]⟩
  | x :: xs, s, N, h, g, hx, hm => by
    have h1 := (insert_eq h x).1
    rw [mags_cons, List.length_cons, Nat.add_mul, Nat.one_mul] at hm
    obtain ⟨g1, m1⟩ := insert_lt h g (hx x List.mem_cons_self) (by
      rw [hA]
      generalize 2 ^ 276 = B at *
      omega)
    rw [hA] at m1
    obtain ⟨r1, r2, r3⟩ := fold_lt hA h1 g1 (fun y hy => hx y (List.mem_cons_of_mem _ hy)) (by
      generalize 2 ^ 276 = B at *
      omega)
    rw [List.foldl_cons, List.map_cons, List.sum_cons, ← Int.add_assoc, mags_cons, List.length_cons, Nat.add_mul, Nat.one_mul]
    refine ⟨r1, r2, ?_⟩
    omega

theorem top_lt {P : List (BitVec 32)} (hP : ∀ p ∈ P, isFin p = true) : ∀ {n : Nat} {hi lo : BitVec 32}, n ≤ P.length → isFin hi = true →
    (fval hi).natAbs + mags (P.take n) + n * 2 ^ 253 ≤ 2 ^ 276 → isFin (top P n hi lo).2.1 = true
  | 0, _, _, _, h, _ => h
  | n + 1, hi, lo, hn, h, hm => by
    rw [take_succ_getf (by omega), mags_append, Nat.add_mul, Nat.one_mul] at hm
    have hqf : isFin (getf P n) = true := by
      refine hP _ (List.mem_of_mem_take (i := n + 1) ?_)
      rw [take_succ_getf (by omega)]
      simp
    have hs : mags [getf P n] = (fval (getf P n)).natAbs := by simp [mags]
    rw [hs] at hm
    obtain ⟨f1, f2⟩ := fadd_lt h hqf (by
      generalize 2 ^ 253 = A at *
      generalize 2 ^ 276 = B at *
      omega)
    rw [top]
    split
    · refine top_lt hP (by omega) f1 ?_
      generalize 2 ^ 253 = A at *
      generalize 2 ^ 276 = B at *
      omega
    · exact f1

end Snek.Fsum
