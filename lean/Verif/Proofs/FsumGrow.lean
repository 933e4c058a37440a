import Verif.Proofs.FsumFloat
/-! Inserting a number into a list of partial sums. -/
set_option exponentiation.threshold 400
namespace Snek.Fsum

/-! ## Numbers that do not overlap -/

/-- The numbers `P` do not overlap: multiples of `2^a`, each smaller than a power of two that divides all later ones, all smaller
than `2^b`. -/
def Ch : Nat → List Int → Nat → Prop
  | a, [], b => a ≤ b
  | a, p :: P, b => p ≠ 0 ∧ ((2 ^ a : Nat) : Int) ∣ p ∧ ∃ c, p.natAbs < 2 ^ c ∧ Ch c P b

theorem dvd_le {a : Nat} {p : Int} (h0 : p ≠ 0) (h : ((2 ^ a : Nat) : Int) ∣ p) : 2 ^ a ≤ p.natAbs := by
  apply Decidable.byContradiction
  intro hc
  exact h0 (small_zero h (by omega))

theorem exp_le {a c : Nat} {p : Int} (h0 : p ≠ 0) (h : ((2 ^ a : Nat) : Int) ∣ p) (hc : p.natAbs < 2 ^ c) : a ≤ c := by
  have := dvd_le h0 h
  apply Decidable.byContradiction
  intro hn
  have := Nat.pow_le_pow_right (n := 2) (by decide) (show c ≤ a by omega)
  omega

theorem Ch.weaken : ∀ {P a a' b}, a' ≤ a → Ch a P b → Ch a' P b
  | [], _, _, _, h, H => Nat.le_trans h H
  | _ :: _, _, _, _, h, ⟨h0, hd, c⟩ => ⟨h0, Int.dvd_trans (pow_dvd h) hd, c⟩

theorem Ch.append : ∀ {P a b Q c}, Ch a P b → Ch b Q c → Ch a (P ++ Q) c
  | [], _, _, _, _, h, H => H.weaken h
  | _ :: _, _, _, _, _, ⟨h0, hd, c, hl, h⟩, H => ⟨h0, hd, c, hl, h.append H⟩

theorem Ch.unsnoc : ∀ {P a y b}, Ch a (P ++ [y]) b → ∃ c, Ch a P c ∧ ((2 ^ c : Nat) : Int) ∣ y ∧ y ≠ 0 ∧ y.natAbs < 2 ^ b
  | [], a, y, b, ⟨h0, hd, c, hl, h⟩ =>
    ⟨a, Nat.le_refl a, hd, h0, Nat.lt_of_lt_of_le hl (Nat.pow_le_pow_right (by decide) h)⟩
  | _ :: _, _, _, _, ⟨h0, hd, c, hl, h⟩ => by
    obtain ⟨d, h1, h2⟩ := h.unsnoc
    exact ⟨d, ⟨h0, hd, c, hl, h1⟩, h2⟩

theorem Ch.le : ∀ {P a b}, Ch a P b → a ≤ b
  | [], _, _, h => h
  | _ :: _, _, _, ⟨h0, hd, _, hl, h⟩ => Nat.le_trans (exp_le h0 hd hl) h.le

/-- Their sum is smaller than the bound. -/
theorem Ch.sum : ∀ {P a b}, Ch a P b → P.sum.natAbs + 2 ^ a ≤ 2 ^ b
  | [], a, b, h => by
    have := Nat.pow_le_pow_right (n := 2) (by decide) (show a ≤ b from h)
    simpa using this
  | p :: P, a, b, ⟨h0, hd, c, hl, h⟩ => by
    have h1 := h.sum
    have hac := exp_le h0 hd hl
    obtain ⟨m, hm⟩ := dvd_abs hd
    have h2 : p.natAbs + 2 ^ a ≤ 2 ^ c := by
      obtain ⟨j, rfl⟩ := Nat.exists_eq_add_of_le hac
      rw [hm, Nat.pow_add, Nat.mul_comm (2 ^ a)] at hl
      have := Nat.lt_of_mul_lt_mul_right hl
      have : (m + 1) * 2 ^ a ≤ 2 ^ j * 2 ^ a := Nat.mul_le_mul_right _ this
      rw [Nat.add_mul] at this
      rw [hm, Nat.pow_add, Nat.mul_comm (2 ^ a)]
      omega
    rw [List.sum_cons]
    omega

/-! ## Sum and error of two numbers -/

/-- The swap, snek-math.c:106-110. -/
def ord (x y : BitVec 32) : BitVec 32 × BitVec 32 := if fltF (fabs x) (fabs y) then (y, x) else (x, y)

/-- `hi`, snek-math.c:111. -/
def hiOf (x y : BitVec 32) : BitVec 32 := fadd (ord x y).1 (ord x y).2

/-- `lo`, snek-math.c:112-113. -/
def loOf (x y : BitVec 32) : BitVec 32 := fsub (ord x y).2 (fsub (hiOf x y) (ord x y).1)

/-- Sum and error, for a larger first number. -/
theorem fast_two {x y : BitVec 32} (hx : isFin x = true) (hy : isFin y = true) (hxy : (fval y).natAbs ≤ (fval x).natAbs)
    (hh : isFin (fadd x y) = true) :
    isFin (fsub y (fsub (fadd x y) x)) = true ∧
    fval (fsub y (fsub (fadd x y) x)) = fval x + fval y - fval (fadd x y) ∧
    ∃ e, Grid (fval x + fval y) (fval (fadd x y)) e := by
  obtain ⟨e, g⟩ := grid_fadd hx hy hh
  obtain ⟨h1, h2⟩ := fsub_exact hh hx (diff_rep (rep_fin hx) (rep_fin hy) hxy g)
  have h3 := err_rep (rep_fin hx) (rep_fin hy) g
  have e1 : fval y - fval (fsub (fadd x y) x) = fval x + fval y - fval (fadd x y) := by rw [h2]; omega
  obtain ⟨h4, h5⟩ := fsub_exact hy h1 (by rw [e1]; exact h3)
  exact ⟨h4, by rw [h5, e1], e, g⟩

theorem two_sum {x y : BitVec 32} (hx : isFin x = true) (hy : isFin y = true) (hh : isFin (hiOf x y) = true) :
    isFin (loOf x y) = true ∧ fval (loOf x y) = fval x + fval y - fval (hiOf x y) ∧
    ∃ e, Grid (fval x + fval y) (fval (hiOf x y)) e := by
  have hf := fltF_val (fabs_fin hx).1 (fabs_fin hy).1
  rw [(fabs_fin hx).2, (fabs_fin hy).2] at hf
  unfold loOf hiOf at *
  by_cases hc : fltF (fabs x) (fabs y) = true
  · have ho : ord x y = (y, x) := if_pos hc
    simp only [ho] at hh ⊢
    rw [Int.add_comm (fval x)]
    have := hf.1 hc
    exact fast_two hy hx (by omega) hh
  · have ho : ord x y = (x, y) := if_neg hc
    simp only [ho] at hh ⊢
    refine fast_two hx hy ?_ hh
    apply Decidable.byContradiction
    intro hn
    exact hc (hf.2 (by omega))

theorem hiOf_bad {x y : BitVec 32} (h : isFin x = false ∨ isFin y = false) : isFin (hiOf x y) = false := by
  unfold hiOf ord
  split
  · exact fadd_bad h.symm
  · exact fadd_bad h

/-! ## The loop over the partial sums -/

/-- The errors left and the number carried on. -/
def lows : List (BitVec 32) → BitVec 32 → List (BitVec 32) × BitVec 32
  | [], x => ([], x)
  | y :: ps, x =>
    if feq (loOf x y) 0 then lows ps (hiOf x y)
    else (floatToPoly (loOf x y) :: (lows ps (hiOf x y)).1, (lows ps (hiOf x y)).2)

theorem inner_succ (k j i : Nat) (x : BitVec 32) (ps : List (BitVec 32)) :
    inner (k + 1) j i x ps =
      if feq (loOf x (getf ps j)) 0 then inner k (j + 1) i (hiOf x (getf ps j)) ps
      else inner k (j + 1) (i + 1) (hiOf x (getf ps j)) (putf ps i (loOf x (getf ps j))) := by
  rw [inner]
  unfold loOf hiOf ord
  split
  rename_i heq
  rw [heq]

theorem getf_drop {ps : List (BitVec 32)} {j : Nat} (h : j < ps.length) : ps.drop j = getf ps j :: ps.drop (j + 1) := by
  unfold getf
  rw [List.drop_eq_getElem_cons h, List.getElem?_eq_getElem h]
  rfl

theorem inner_eq : ∀ (k j i : Nat) (x : BitVec 32) (ps : List (BitVec 32)), i ≤ j → j + k ≤ ps.length →
    let r := lows ((ps.drop j).take k) x
    (inner k j i x ps).2.1 = i + r.1.length ∧ (inner k j i x ps).2.2 = r.2 ∧
    (inner k j i x ps).1.take (i + r.1.length) = ps.take i ++ r.1 ∧ (inner k j i x ps).1.length = ps.length ∧ r.1.length ≤ k
  | 0, j, i, x, ps, _, _ => by simp [inner, lows]
  | k + 1, j, i, x, ps, hi, hl => by
    have hd := getf_drop (show j < ps.length by omega)
    rw [hd, List.take_succ_cons]
    rw [inner_succ]
    simp only [lows]
    split
    · have ih := inner_eq k (j + 1) i (hiOf x (getf ps j)) ps (by omega) (by omega)
      obtain ⟨a, b, c, d, e⟩ := ih
      exact ⟨a, b, c, d, by omega⟩
    · have ih := inner_eq k (j + 1) (i + 1) (hiOf x (getf ps j)) (putf ps i (loOf x (getf ps j))) (by omega)
        (by unfold putf; rw [List.length_set]; omega)
      have hdr : (putf ps i (loOf x (getf ps j))).drop (j + 1) = ps.drop (j + 1) := by
        unfold putf
        rw [List.drop_set_of_lt (by omega)]
      rw [hdr] at ih
      obtain ⟨a, b, c, d, e⟩ := ih
      simp only [List.length_cons]
      refine ⟨by omega, b, ?_, by rw [d]; unfold putf; rw [List.length_set], by omega⟩
      have e1 : ∀ m, i + (m + 1) = i + 1 + m := by omega
      rw [e1, c]
      unfold putf
      rw [List.take_set, List.take_succ_eq_append_getElem (show i < ps.length by omega), List.set_append]
      have : (ps.take i).length = i := by rw [List.length_take]; omega
      rw [if_neg (by omega), this, Nat.sub_self]
      simp

theorem lows_bad : ∀ {ps : List (BitVec 32)} {x : BitVec 32}, (isFin x = false ∨ ∃ y ∈ ps, isFin y = false) → isFin (lows ps x).2 = false
  | [], x, h => by
    rcases h with h | ⟨y, hy, _⟩
    · exact h
    · cases hy
  | y :: ps, x, h => by
    have : isFin (hiOf x y) = false ∨ ∃ y ∈ ps, isFin y = false := by
      rcases h with h | ⟨z, hz, hf⟩
      · exact .inl (hiOf_bad (.inl h))
      · rcases List.mem_cons.1 hz with rfl | hz
        · exact .inl (hiOf_bad (.inr hf))
        · exact .inr ⟨z, hz, hf⟩
    simp only [lows]
    split
    · exact lows_bad this
    · exact lows_bad this

/-- When nothing overflows: the errors do not overlap, and nothing is lost. -/
theorem lows_spec : ∀ {ps : List (BitVec 32)} {x : BitVec 32} {b B : Nat}, isFin x = true → (∀ y ∈ ps, isFin y = true) →
    Ch b (ps.map fval) B → ((2 ^ b : Nat) : Int) ∣ fval x → isFin (lows ps x).2 = true →
    ∃ b', Ch b ((lows ps x).1.map fval) b' ∧ ((2 ^ b' : Nat) : Int) ∣ fval (lows ps x).2 ∧ (∀ y ∈ (lows ps x).1, isFin y = true) ∧
      ((lows ps x).1.map fval).sum + fval (lows ps x).2 = fval x + (ps.map fval).sum
  | [], x, b, B, _, _, _, hd, _ => ⟨b, Nat.le_refl b, hd, nofun, by simp [lows]⟩
  | y :: ps, x, b, B, hx, hp, ⟨h0, hdy, c, hl, hc⟩, hd, hf => by
    have hy := hp y List.mem_cons_self
    have hp' : ∀ z ∈ ps, isFin z = true := fun z hz => hp z (List.mem_cons_of_mem _ hz)
    have hh : isFin (hiOf x y) = true := by
      cases hh : isFin (hiOf x y) with
      | true => rfl
      | false =>
        have : isFin (lows (y :: ps) x).2 = false := by
          simp only [lows]
          split <;> exact lows_bad (.inl hh)
        rw [this] at hf
        cases hf
    obtain ⟨l1, l2, e, g⟩ := two_sum hx hy hh
    have hbc := exp_le h0 hdy hl
    have hds := Int.dvd_add hd hdy
    by_cases hz : feq (loOf x y) 0 = true
    · have hv := (feq_zero l1).1 hz
      have hs : fval (hiOf x y) = fval x + fval y := by omega
      simp only [lows, hz, if_true] at hf ⊢
      obtain ⟨b', r1, r2, r3, r4⟩ := lows_spec hh hp' (hc.weaken hbc) (hs ▸ hds) hf
      refine ⟨b', r1, r2, r3, ?_⟩
      rw [r4, hs, List.map_cons, List.sum_cons]
      omega
    · have hv : fval (loOf x y) ≠ 0 := fun h => hz ((feq_zero l1).2 h)
      simp only [lows, if_neg hz] at hf ⊢
      have hme : min e c ≤ e := Nat.min_le_left _ _
      have hmc : min e c ≤ c := Nat.min_le_right _ _
      obtain ⟨b', r1, r2, r3, r4⟩ := lows_spec (b := min e c) hh hp' (hc.weaken hmc) (Int.dvd_trans (pow_dvd hme) g.dvd) hf
      rw [poly_fin l1]
      refine ⟨b', ⟨hv, ?_, min e c, ?_, r1⟩, r2, ?_, ?_⟩
      · rw [l2]
        exact Int.dvd_sub hds (g.mult hds)
      · have h1 := g.err
        have h2 := g.near (fval x) (rep_fin hx)
        have hpe := pow_pos2 e
        rcases Nat.le_total e c with h | h
        · rw [Nat.min_eq_left h, l2]; omega
        · rw [Nat.min_eq_right h, l2]; omega
      · intro z hz
        rcases List.mem_cons.1 hz with rfl | hz
        · exact l1
        · exact r3 z hz
      · rw [List.map_cons, List.sum_cons, List.map_cons, List.sum_cons, Int.add_assoc, r4, l2]
        omega

end Snek.Fsum
