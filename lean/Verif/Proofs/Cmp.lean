import Verif.Spec.Order
/-!
Helper: the comparison with the prefix rule corrected (`okCmp`), its order laws, and its relation to the code's `cmp`.
-/
namespace Snek
open Spec

mutual
/-- `Tree.cmp` with the prefix rule corrected (proof device only, not a model of code). -/
def okCmp : Tree → Tree → Int
  | .num a, .num b => numCmp a b
  | .str a, .str b => sgn (strcmp a b)
  | .list t l, .list t' l' => if t.num - t'.num ≠ 0 then t.num - t'.num else okCmpList l l'
  | .func a, .func b => natCmp a b
  | .builtin a, .builtin b => natCmp a b
  | a, b => (a.type.num : Int) - b.type.num
def okCmpList : List Tree → List Tree → Int
  | [], [] => 0
  | [], _ :: _ => -1
  | _ :: _, [] => 1
  | a :: l, b :: l' => if okCmp a b ≠ 0 then okCmp a b else okCmpList l l'
end

theorem f32mag_succ (m : Nat) : f32mag m < f32mag (m + 1) := by
  unfold f32mag
  have h1 : m = 2 ^ 23 * (m / 2 ^ 23) + m % 2 ^ 23 := (Nat.div_add_mod m _).symm
  by_cases hc : m % 2 ^ 23 = 2 ^ 23 - 1
  · have hd : (m + 1) / 2 ^ 23 = m / 2 ^ 23 + 1 := by omega
    have hm : (m + 1) % 2 ^ 23 = 0 := by omega
    rw [hd, hm, hc]
    generalize m / 2 ^ 23 = e
    cases e with
    | zero => simp
    | succ e =>
      simp only [Nat.succ_ne_zero, if_false, Nat.add_sub_cancel]
      rw [Nat.pow_succ 2 e]
      have := Nat.two_pow_pos e
      omega
  · have hd : (m + 1) / 2 ^ 23 = m / 2 ^ 23 := by omega
    have hm : (m + 1) % 2 ^ 23 = m % 2 ^ 23 + 1 := by omega
    rw [hd, hm]
    split
    · omega
    · exact Nat.mul_lt_mul_of_pos_right (by omega) (Nat.two_pow_pos _)

theorem f32mag_mono {m n : Nat} (h : m < n) : f32mag m < f32mag n := by
  induction n with
  | zero => omega
  | succ n ih =>
    by_cases hn : m = n
    · subst hn; exact f32mag_succ m
    · exact Nat.lt_trans (ih (by omega)) (f32mag_succ n)

theorem f32mag_lt (m n : Nat) : f32mag m < f32mag n ↔ m < n := by
  constructor
  · intro h
    apply Decidable.byContradiction; intro hn
    rcases Nat.lt_or_eq_of_le (Nat.le_of_not_lt hn) with h1 | h1
    · have := f32mag_mono h1; omega
    · subst h1; omega
  · exact f32mag_mono

theorem f32mag_zero : f32mag 0 = 0 := by decide
theorem f32mag_pos (m : Nat) : 0 < f32mag m ↔ 0 < m := by rw [← f32mag_zero, f32mag_lt, f32mag_zero]

/-- The bit-pattern key orders numbers by value. -/
theorem fkey_val (a b : BitVec 32) : fkey a < fkey b ↔ f32val a < f32val b := by
  unfold fkey f32val
  generalize a.toNat = x; generalize b.toNat = y
  split <;> split
  · have := f32mag_lt x y; omega
  · constructor <;> intro h <;> omega
  · have h1 := f32mag_pos (x - 2 ^ 31); have h2 := f32mag_pos y
    constructor <;> intro h <;> omega
  · have := f32mag_lt (y - 2 ^ 31) (x - 2 ^ 31); omega

theorem fkey_val_eq (a b : BitVec 32) : fkey a = fkey b ↔ f32val a = f32val b := by
  have h1 := fkey_val a b; have h2 := fkey_val b a; omega

/-- A comparison result that is a three-way order on `a b c`. -/
structure Tri (x y z : Int) : Prop where
  le : x ≤ 0 → y ≤ 0 → z ≤ 0
  eq : x ≤ 0 → y ≤ 0 → z = 0 → x = 0 ∧ y = 0

theorem natCmp_lt (a b : Nat) : natCmp a b < 0 ↔ a < b := by
  unfold natCmp b2i; by_cases h1 : b < a <;> by_cases h2 : a < b <;> simp [h1, h2] <;> omega
theorem natCmp_eq (a b : Nat) : natCmp a b = 0 ↔ a = b := by
  unfold natCmp b2i; by_cases h1 : b < a <;> by_cases h2 : a < b <;> simp [h1, h2] <;> omega
theorem natCmp_antisym (a b : Nat) : natCmp a b = - natCmp b a := by unfold natCmp; omega
theorem natCmp_tri (a b c : Nat) : Tri (natCmp a b) (natCmp b c) (natCmp a c) := by
  have h1 := natCmp_lt a b; have h2 := natCmp_eq a b
  have h3 := natCmp_lt b c; have h4 := natCmp_eq b c
  have h5 := natCmp_lt a c; have h6 := natCmp_eq a c
  constructor <;> intros <;> omega

/-- Stored form of a number. -/
def StoredNum (u : BitVec 32) : Prop := isNanF u = true → u = NAN_U

/-- Key of a stored number: NaN above everything. -/
def nkey (u : BitVec 32) : Int := if isNanF u then 2 ^ 32 else fkey u

theorem fkey_lt (u : BitVec 32) : fkey u < 2 ^ 32 ∧ -(2 ^ 32) < fkey u := by
  have := u.isLt; unfold fkey; split <;> constructor <;> omega

theorem isNan_iff (u : BitVec 32) (h : StoredNum u) : isNan u = isNanF u := by
  unfold StoredNum at h
  by_cases hn : isNanF u = true
  · rw [h hn]; decide
  · have hf : isNanF u = false := by simpa using hn
    rw [hf]
    simp only [isNan, beq_eq_false_iff_ne]
    intro he; subst he; revert hn; decide

theorem numCmp_key (a b : BitVec 32) (ha : StoredNum a) (hb : StoredNum b) :
    (numCmp a b < 0 ↔ nkey a < nkey b) ∧ (numCmp a b = 0 ↔ nkey a = nkey b) := by
  have h1 := fkey_lt a; have h2 := fkey_lt b
  unfold numCmp
  rw [isNan_iff a ha, isNan_iff b hb]
  unfold nkey fltF b2i
  by_cases hna : isNanF a = true <;> by_cases hnb : isNanF b = true
  · simp [hna, hnb]
  · have : isNanF b = false := by simpa using hnb
    simp [hna, this]; omega
  · have : isNanF a = false := by simpa using hna
    simp [hnb, this]; omega
  · have e1 : isNanF a = false := by simpa using hna
    have e2 : isNanF b = false := by simpa using hnb
    simp only [e1, e2]
    by_cases h3 : fkey b < fkey a <;> by_cases h4 : fkey a < fkey b <;> simp [h3, h4] <;> omega

theorem numCmp_antisym (a b : BitVec 32) : numCmp a b = - numCmp b a := by
  unfold numCmp
  simp only
  split <;> split <;> omega

theorem numCmp_tri (a b c : BitVec 32) (ha : StoredNum a) (hb : StoredNum b) (hc : StoredNum c) :
    Tri (numCmp a b) (numCmp b c) (numCmp a c) := by
  have h1 := numCmp_key a b ha hb; have h2 := numCmp_key b c hb hc; have h3 := numCmp_key a c ha hc
  constructor <;> intros <;> omega

theorem strcmp_antisym (a b : List UInt8) : strcmp a b = - strcmp b a := by
  induction a generalizing b with
  | nil => cases b <;> simp [strcmp]
  | cons x s ih =>
    cases b with
    | nil => simp [strcmp]
    | cons y t =>
      simp only [strcmp]
      by_cases h : x = y
      · subst h; simp [ih]
      · have h' : ¬ y = x := fun e => h e.symm
        simp only [h, h', if_false]
        simp only [UInt8.lt_iff_toNat_lt]
        have hne : x.toNat ≠ y.toNat := fun e => h (UInt8.toNat_inj.1 e)
        split <;> split <;> omega

theorem strcmp_eq (a b : List UInt8) : strcmp a b = 0 ↔ a = b := by
  induction a generalizing b with
  | nil => cases b <;> simp [strcmp]
  | cons x s ih =>
    cases b with
    | nil => simp [strcmp]
    | cons y t =>
      simp only [strcmp]
      by_cases h : x = y
      · subst h; simp [ih]
      · simp only [h, if_false, List.cons.injEq, false_and, iff_false]
        split <;> omega

theorem strcmp_lex (a b : List UInt8) : strcmp a b < 0 ↔ Lex (· < ·) (· = ·) a b := by
  induction a generalizing b with
  | nil =>
    cases b with
    | nil => simp [strcmp]; intro h; cases h
    | cons y t => simp [strcmp]; exact Lex.nil _ _
  | cons x s ih =>
    cases b with
    | nil => simp [strcmp]; intro h; cases h
    | cons y t =>
      simp only [strcmp]
      by_cases h : x = y
      · subst h
        simp only [if_true, ih]
        constructor
        · intro h; exact Lex.tail _ _ _ _ rfl h
        · intro h; cases h with
          | head _ _ _ _ h => exact absurd h (by rw [UInt8.lt_iff_toNat_lt]; omega)
          | tail _ _ _ _ _ h => exact h
      · simp only [h, if_false]
        constructor
        · intro hh
          split at hh
          · rename_i hl; exact Lex.head _ _ _ _ hl
          · omega
        · intro hh
          cases hh with
          | head _ _ _ _ hl => rw [if_pos hl]; decide
          | tail _ _ _ _ he _ => exact absurd he h

theorem strcmp_tri (a b c : List UInt8) : Tri (strcmp a b) (strcmp b c) (strcmp a c) := by
  induction a generalizing b c with
  | nil =>
    cases b <;> cases c <;> constructor <;> simp [strcmp]
  | cons x s ih =>
    cases b with
    | nil => constructor <;> simp [strcmp]
    | cons y t =>
      cases c with
      | nil => constructor <;> simp [strcmp]
      | cons z u =>
        have ih := ih t u
        simp only [strcmp]
        by_cases h1 : x = y <;> by_cases h2 : y = z
        · subst h1; subst h2; simp only [if_true]; exact ih
        · subst h1
          simp only [if_true, h2, if_false]
          constructor <;> intro _ h
          · exact h
          · intro h0; split at h0 <;> omega
        · subst h2
          simp only [if_true, h1, if_false]
          constructor <;> intro h _
          · exact h
          · intro h0; split at h0 <;> omega
        · simp only [h1, h2, if_false]
          have hxy : x.toNat ≠ y.toNat := fun e => h1 (UInt8.toNat_inj.1 e)
          have hyz : y.toNat ≠ z.toNat := fun e => h2 (UInt8.toNat_inj.1 e)
          simp only [UInt8.lt_iff_toNat_lt]
          have hxz : x = z ↔ x.toNat = z.toNat := ⟨fun e => by rw [e], fun e => UInt8.toNat_inj.1 e⟩
          constructor
          · intro ha hb
            split at ha <;> split at hb <;> try omega
            rw [if_neg (by rw [hxz]; omega), if_pos (by omega)]; omega
          · intro ha hb
            split at ha <;> split at hb <;> try omega
            rw [if_neg (by rw [hxz]; omega), if_pos (by omega)]; omega

theorem sgn_lt (x : Int) : sgn x < 0 ↔ x < 0 := by
  unfold sgn b2i; by_cases h1 : x > 0 <;> by_cases h2 : x < 0 <;> simp [h1, h2] <;> omega
theorem sgn_eq (x : Int) : sgn x = 0 ↔ x = 0 := by
  unfold sgn b2i; by_cases h1 : x > 0 <;> by_cases h2 : x < 0 <;> simp [h1, h2] <;> omega
theorem sgn_neg (x : Int) : sgn (-x) = - sgn x := by
  unfold sgn b2i; by_cases h1 : x > 0 <;> by_cases h2 : x < 0 <;> simp [h1, h2] <;> split <;> omega

theorem sgnstr_tri (a b c : List UInt8) : Tri (sgn (strcmp a b)) (sgn (strcmp b c)) (sgn (strcmp a c)) := by
  have h := strcmp_tri a b c
  have h1 := sgn_lt (strcmp a b); have h2 := sgn_eq (strcmp a b)
  have h3 := sgn_lt (strcmp b c); have h4 := sgn_eq (strcmp b c)
  have h5 := sgn_lt (strcmp a c); have h6 := sgn_eq (strcmp a c)
  have hl := h.le; have he := h.eq
  constructor <;> intros <;> omega

theorem LType.num_inj (t t' : LType) : t.num - t'.num = 0 ↔ t = t' := by cases t <;> cases t' <;> decide

mutual
theorem okCmp_antisym : ∀ a b : Tree, okCmp a b = - okCmp b a
  | .num a, .num b => by simp only [okCmp]; exact numCmp_antisym a b
  | .str a, .str b => by simp only [okCmp]; rw [strcmp_antisym, sgn_neg]
  | .func a, .func b => by simp only [okCmp]; exact natCmp_antisym a b
  | .builtin a, .builtin b => by simp only [okCmp]; exact natCmp_antisym a b
  | .list t l, .list t' l' => by
      simp only [okCmp]
      have := okCmpList_antisym l l'
      split <;> split <;> omega
  | .num _, .str _ | .num _, .list _ _ | .num _, .func _ | .num _, .builtin _ => by simp [okCmp, Tree.type, PType.num]
  | .str _, .num _ | .str _, .list _ _ | .str _, .func _ | .str _, .builtin _ => by simp [okCmp, Tree.type, PType.num]
  | .list _ _, .num _ | .list _ _, .str _ | .list _ _, .func _ | .list _ _, .builtin _ => by simp [okCmp, Tree.type, PType.num]
  | .func _, .num _ | .func _, .str _ | .func _, .list _ _ | .func _, .builtin _ => by simp [okCmp, Tree.type, PType.num]
  | .builtin _, .num _ | .builtin _, .str _ | .builtin _, .list _ _ | .builtin _, .func _ => by simp [okCmp, Tree.type, PType.num]
theorem okCmpList_antisym : ∀ a b : List Tree, okCmpList a b = - okCmpList b a
  | [], [] => by simp [okCmpList]
  | [], _ :: _ => by simp [okCmpList]
  | _ :: _, [] => by simp [okCmpList]
  | a :: l, b :: l' => by
      simp only [okCmpList]
      have h1 := okCmp_antisym a b
      have h2 := okCmpList_antisym l l'
      split <;> split <;> omega
end

theorem okCmp_kind (a b : Tree) (h : a.type ≠ b.type) : okCmp a b = (a.type.num : Int) - b.type.num := by
  cases a <;> cases b <;> simp_all [okCmp, Tree.type]

mutual
theorem okCmp_tri : ∀ a b c : Tree, Stored a → Stored b → Stored c → Tri (okCmp a b) (okCmp b c) (okCmp a c) := by
  intro a b c ha hb hc
  by_cases h1 : a.type = b.type
  · by_cases h2 : b.type = c.type
    · cases a <;> cases b <;> simp only [Tree.type, reduceCtorEq] at h1 <;> cases c <;> simp only [Tree.type, reduceCtorEq] at h2
      · simp only [okCmp]; exact numCmp_tri _ _ _ ha hb hc
      · simp only [okCmp]; exact sgnstr_tri _ _ _
      · rename_i t l t' l' t'' l''
        simp only [Stored] at ha hb hc
        have ih := okCmpList_tri l l' l'' ha hb hc
        simp only [okCmp]
        have h3 := ih.le; have h4 := ih.eq
        constructor
        · intros; repeat' split at *
          all_goals omega
        · intros; repeat' split at *
          all_goals omega
      · simp only [okCmp]; exact natCmp_tri _ _ _
      · simp only [okCmp]; exact natCmp_tri _ _ _
    · rw [okCmp_kind b c h2, okCmp_kind a c (by rw [h1]; exact h2), h1]
      have : (b.type.num : Int) ≠ c.type.num := by
        intro h; apply h2; revert h; cases b.type <;> cases c.type <;> simp [PType.num]
      constructor <;> intros <;> omega
  · by_cases h2 : b.type = c.type
    · rw [okCmp_kind a b h1, okCmp_kind a c (by rw [← h2]; exact h1), h2]
      have : (a.type.num : Int) ≠ c.type.num := by
        intro h; apply h1; rw [h2]; revert h; cases a.type <;> cases c.type <;> simp [PType.num]
      constructor <;> intros <;> omega
    · have n1 : (a.type.num : Int) ≠ b.type.num := by
        intro h; apply h1; revert h; cases a.type <;> cases b.type <;> simp [PType.num]
      have n2 : (b.type.num : Int) ≠ c.type.num := by
        intro h; apply h2; revert h; cases b.type <;> cases c.type <;> simp [PType.num]
      rw [okCmp_kind a b h1, okCmp_kind b c h2]
      by_cases h3 : a.type = c.type
      · rw [h3] at n1 ⊢
        constructor <;> intros <;> omega
      · rw [okCmp_kind a c h3]
        constructor <;> intros <;> omega
theorem okCmpList_tri : ∀ a b c : List Tree, StoredList a → StoredList b → StoredList c →
    Tri (okCmpList a b) (okCmpList b c) (okCmpList a c) := by
  intro a b c ha hb hc
  match a, b, c with
  | [], [], [] => constructor <;> simp [okCmpList]
  | [], [], _ :: _ => constructor <;> simp [okCmpList]
  | [], _ :: _, [] => constructor <;> simp [okCmpList]
  | [], _ :: _, _ :: _ => constructor <;> simp [okCmpList]
  | _ :: _, [], _ => constructor <;> simp [okCmpList]
  | _ :: _, _ :: _, [] => constructor <;> simp [okCmpList]
  | x :: l, y :: l', z :: l'' =>
    simp only [StoredList] at ha hb hc
    have h1 := okCmp_tri x y z ha.1 hb.1 hc.1
    have h2 := okCmpList_tri l l' l'' ha.2 hb.2 hc.2
    have := h1.le; have := h1.eq; have := h2.le; have := h2.eq
    simp only [okCmpList]
    constructor
    · intros; repeat' split at *
      all_goals omega
    · intros; repeat' split at *
      all_goals omega
end

mutual
theorem okCmp_same : ∀ a b : Tree, Stored a → Stored b → (okCmp a b = 0 ↔ Same a b)
  | .num a, .num b, ha, hb => by
      simp only [okCmp, Same, Stored] at *
      rw [(numCmp_key a b ha hb).2, ← fkey_val_eq]
      have := fkey_lt a; have := fkey_lt b
      unfold nkey
      by_cases h1 : isNanF a = true <;> by_cases h2 : isNanF b = true
      · simp only [h1, h2, if_true, true_iff]; left; rw [ha h1, hb h2]
      · simp only [h1, h2]
        constructor
        · intro h; simp at h; omega
        · rintro (h | h)
          · subst h; exact absurd h1 h2
          · simp at h
      · simp only [h1, h2]
        constructor
        · intro h; simp at h; omega
        · rintro (h | h)
          · subst h; exact absurd h2 h1
          · simp at h
      · have e1 : isNanF a = false := by simpa using h1
        have e2 : isNanF b = false := by simpa using h2
        simp only [e1, e2]
        constructor
        · intro h; right; simpa using h
        · rintro (h | h)
          · subst h; rfl
          · simpa using h
  | .str a, .str b, _, _ => by simp only [okCmp, Same]; rw [sgn_eq, strcmp_eq]
  | .func a, .func b, _, _ => by simp only [okCmp, Same]; exact natCmp_eq a b
  | .builtin a, .builtin b, _, _ => by simp only [okCmp, Same]; exact natCmp_eq a b
  | .list t l, .list t' l', ha, hb => by
      simp only [okCmp, Same, Stored] at *
      have ih := okCmpList_same l l' ha hb
      rw [← LType.num_inj]
      split
      · rename_i h; constructor
        · intro h'; exact absurd h' h
        · rintro ⟨h', _⟩; exact absurd h' h
      · rename_i h
        simp only [ne_eq, Decidable.not_not] at h
        rw [ih]; simp [h]
  | .num _, .str _, _, _ | .num _, .list _ _, _, _ | .num _, .func _, _, _ | .num _, .builtin _, _, _ => by simp [okCmp, Same, Tree.type, PType.num]
  | .str _, .num _, _, _ | .str _, .list _ _, _, _ | .str _, .func _, _, _ | .str _, .builtin _, _, _ => by simp [okCmp, Same, Tree.type, PType.num]
  | .list _ _, .num _, _, _ | .list _ _, .str _, _, _ | .list _ _, .func _, _, _ | .list _ _, .builtin _, _, _ => by simp [okCmp, Same, Tree.type, PType.num]
  | .func _, .num _, _, _ | .func _, .str _, _, _ | .func _, .list _ _, _, _ | .func _, .builtin _, _, _ => by simp [okCmp, Same, Tree.type, PType.num]
  | .builtin _, .num _, _, _ | .builtin _, .str _, _, _ | .builtin _, .list _ _, _, _ | .builtin _, .func _, _, _ => by simp [okCmp, Same, Tree.type, PType.num]
theorem okCmpList_same : ∀ a b : List Tree, StoredList a → StoredList b → (okCmpList a b = 0 ↔ SameList a b)
  | [], [], _, _ => by simp [okCmpList, SameList]
  | [], _ :: _, _, _ => by simp [okCmpList, SameList]
  | _ :: _, [], _, _ => by simp [okCmpList, SameList]
  | a :: l, b :: l', ha, hb => by
      simp only [okCmpList, SameList, StoredList] at *
      have h1 := okCmp_same a b ha.1 hb.1
      have h2 := okCmpList_same l l' ha.2 hb.2
      rw [← h1, ← h2]
      split <;> simp_all
end

theorem kindRank_eq (a : Tree) : kindRank a = a.type.num := by cases a <;> rfl

mutual
theorem okCmp_less : ∀ a b : Tree, Stored a → Stored b → (okCmp a b < 0 ↔ Less a b) := by
  intro a b ha hb
  by_cases hk : a.type = b.type
  · have hrank : ¬ kindRank a < kindRank b := by rw [kindRank_eq, kindRank_eq, hk]; omega
    cases a <;> cases b <;> simp only [Tree.type, reduceCtorEq] at hk
    · rename_i a b
      simp only [okCmp, Stored] at *
      rw [(numCmp_key a b ha hb).1]
      have := fkey_lt a; have := fkey_lt b
      unfold nkey
      constructor
      · intro h
        by_cases h1 : isNanF a = true
        · simp only [h1, if_true] at h; split at h <;> omega
        · by_cases h2 : isNanF b = true
          · exact Less.nan a b (by simpa using h1) (hb h2)
          · exact Less.num a b (by simpa using h1) (by simpa using h2) ((fkey_val a b).1 (by simpa [h1, h2] using h))
      · intro h
        cases h with
        | num _ _ h1 h2 h3 => simpa [h1, h2] using (fkey_val a b).2 h3
        | nan _ _ h1 h2 =>
          have hb' : isNanF b = true := by rw [h2]; decide
          simp only [h1, hb', if_true]; simp; omega
        | kind _ _ h => exact absurd h hrank
    · simp only [okCmp]
      rw [sgn_lt, strcmp_lex]
      constructor
      · intro h; exact Less.str _ _ h
      · intro h; cases h with
        | str _ _ h => exact h
        | kind _ _ h => exact absurd h hrank
    · rename_i t l t' l'
      simp only [Stored] at ha hb
      have ih := okCmpList_less l l' ha hb
      simp only [okCmp]
      constructor
      · intro h
        split at h
        · exact Less.ltype _ _ _ _ (by omega)
        · rename_i hh
          simp only [ne_eq, Decidable.not_not, LType.num_inj] at hh
          subst hh
          exact Less.list _ _ _ (ih.1 h)
      · intro h
        cases h with
        | list _ _ _ h => simp; exact ih.2 h
        | ltype _ _ _ _ h => rw [if_pos (by omega)]; omega
        | kind _ _ h => exact absurd h hrank
    · simp only [okCmp]
      rw [natCmp_lt]
      constructor
      · intro h; exact Less.func _ _ h
      · intro h; cases h with
        | func _ _ h => exact h
        | kind _ _ h => exact absurd h hrank
    · simp only [okCmp]
      rw [natCmp_lt]
      constructor
      · intro h; exact Less.builtin _ _ h
      · intro h; cases h with
        | builtin _ _ h => exact h
        | kind _ _ h => exact absurd h hrank
  · rw [okCmp_kind a b hk]
    constructor
    · intro h; exact Less.kind a b (by rw [kindRank_eq, kindRank_eq]; omega)
    · intro h
      cases h with
      | kind _ _ h => rw [kindRank_eq, kindRank_eq] at h; omega
      | _ => exact absurd rfl hk
theorem okCmpList_less : ∀ a b : List Tree, StoredList a → StoredList b → (okCmpList a b < 0 ↔ Lex Less Same a b) := by
  intro a b ha hb
  match a, b with
  | [], [] => simp [okCmpList]; intro h; cases h
  | [], b :: l' => simp [okCmpList]; exact Lex.nil _ _
  | a :: l, [] => simp [okCmpList]; intro h; cases h
  | a :: l, b :: l' =>
      simp only [okCmpList, StoredList] at *
      have h1 := okCmp_less a b ha.1 hb.1
      have h2 := okCmpList_less l l' ha.2 hb.2
      have h3 := okCmp_same a b ha.1 hb.1
      constructor
      · intro h
        split at h
        · exact Lex.head _ _ _ _ (h1.1 h)
        · rename_i hh
          exact Lex.tail _ _ _ _ (h3.1 (by simpa using hh)) (h2.1 h)
      · intro h
        cases h with
        | head _ _ _ _ h => have := h1.2 h; rw [if_pos (by omega)]; exact this
        | tail _ _ _ _ he h => have := h3.2 he; rw [if_neg (by simpa using this)]; exact h2.2 h
end

theorem okCmp_gt (a b : Tree) (ha : Stored a) (hb : Stored b) : okCmp a b > 0 ↔ Less b a := by
  rw [← okCmp_less b a hb ha, okCmp_antisym a b]; omega

/-! ## Relation to the code -/

theorem cmp_scalar (a b : Tree) (ha : Scalar a) (hb : Scalar b) : a.cmp b = okCmp a b := by
  cases a <;> cases b <;> simp_all [Tree.cmp, okCmp, Scalar]

theorem scalar_stored {a : Tree} (h : Scalar a) : Stored a := by
  cases a <;> first | exact h | exact h.elim | trivial

mutual
theorem cmp_ok : ∀ a b : Tree, Stored a → Stored b → ¬ PrefixClash a b → a.cmp b = okCmp a b
  | .num a, .num b, _, _, _ => by simp [Tree.cmp, okCmp]
  | .str a, .str b, _, _, _ => by simp [Tree.cmp, okCmp]
  | .func a, .func b, _, _, _ => by simp [Tree.cmp, okCmp]
  | .builtin a, .builtin b, _, _, _ => by simp [Tree.cmp, okCmp]
  | .list t l, .list t' l', ha, hb, h => by
      simp only [Tree.cmp, okCmp, Stored, PrefixClash] at *
      split
      · rfl
      · rename_i hh
        simp only [ne_eq, Decidable.not_not, LType.num_inj] at hh
        exact cmpList_ok l l' ha hb (fun hc => h ⟨hh, hc⟩)
  | .num _, .str _, _, _, _ | .num _, .list _ _, _, _, _ | .num _, .func _, _, _, _ | .num _, .builtin _, _, _, _ => by simp [okCmp, Tree.cmp]
  | .str _, .num _, _, _, _ | .str _, .list _ _, _, _, _ | .str _, .func _, _, _, _ | .str _, .builtin _, _, _, _ => by simp [okCmp, Tree.cmp]
  | .list _ _, .num _, _, _, _ | .list _ _, .str _, _, _, _ | .list _ _, .func _, _, _, _ | .list _ _, .builtin _, _, _, _ => by simp [okCmp, Tree.cmp]
  | .func _, .num _, _, _, _ | .func _, .str _, _, _, _ | .func _, .list _ _, _, _, _ | .func _, .builtin _, _, _, _ => by simp [okCmp, Tree.cmp]
  | .builtin _, .num _, _, _, _ | .builtin _, .str _, _, _, _ | .builtin _, .list _ _, _, _, _ | .builtin _, .func _, _, _, _ => by simp [okCmp, Tree.cmp]
theorem cmpList_ok : ∀ a b : List Tree, StoredList a → StoredList b → ¬ PrefixClashList a b → cmpList a b = okCmpList a b
  | [], [], _, _, _ => by simp [cmpList, okCmpList]
  | [], _ :: _, _, _, h => by simp [PrefixClashList] at h
  | _ :: _, [], _, _, _ => by simp [cmpList, okCmpList]
  | a :: l, b :: l', ha, hb, h => by
      simp only [cmpList, okCmpList, StoredList, PrefixClashList] at *
      have h1 := cmp_ok a b ha.1 hb.1 (fun hc => h (Or.inl hc))
      rw [h1]
      split
      · rfl
      · rename_i hh
        exact cmpList_ok l l' ha.2 hb.2 (fun hc => h (Or.inr ⟨(okCmp_same a b ha.1 hb.1).1 (by simpa using hh), hc⟩))
end

mutual
theorem cmp_zero_ok : ∀ a b : Tree, a.cmp b = 0 ↔ okCmp a b = 0
  | .num a, .num b => by simp [Tree.cmp, okCmp]
  | .str a, .str b => by simp [Tree.cmp, okCmp]
  | .func a, .func b => by simp [Tree.cmp, okCmp]
  | .builtin a, .builtin b => by simp [Tree.cmp, okCmp]
  | .list t l, .list t' l' => by
      simp only [Tree.cmp, okCmp]
      split
      · rfl
      · exact cmpList_zero_ok l l'
  | .num _, .str _ | .num _, .list _ _ | .num _, .func _ | .num _, .builtin _ => by simp [okCmp, Tree.cmp]
  | .str _, .num _ | .str _, .list _ _ | .str _, .func _ | .str _, .builtin _ => by simp [okCmp, Tree.cmp]
  | .list _ _, .num _ | .list _ _, .str _ | .list _ _, .func _ | .list _ _, .builtin _ => by simp [okCmp, Tree.cmp]
  | .func _, .num _ | .func _, .str _ | .func _, .list _ _ | .func _, .builtin _ => by simp [okCmp, Tree.cmp]
  | .builtin _, .num _ | .builtin _, .str _ | .builtin _, .list _ _ | .builtin _, .func _ => by simp [okCmp, Tree.cmp]
theorem cmpList_zero_ok : ∀ a b : List Tree, cmpList a b = 0 ↔ okCmpList a b = 0
  | [], [] => by simp [cmpList, okCmpList]
  | [], _ :: _ => by simp [cmpList, okCmpList]
  | _ :: _, [] => by simp [cmpList, okCmpList]
  | a :: l, b :: l' => by
      simp only [cmpList, okCmpList]
      have h1 := cmp_zero_ok a b
      have h2 := cmpList_zero_ok l l'
      split <;> split <;> simp_all
end

mutual
theorem cmp_neg_ok : ∀ a b : Tree, a.cmp b < 0 → okCmp a b < 0
  | .num a, .num b => by simp [Tree.cmp, okCmp]
  | .str a, .str b => by simp [Tree.cmp, okCmp]
  | .func a, .func b => by simp [Tree.cmp, okCmp]
  | .builtin a, .builtin b => by simp [Tree.cmp, okCmp]
  | .list t l, .list t' l' => by
      simp only [Tree.cmp, okCmp]
      split
      · exact id
      · exact cmpList_neg_ok l l'
  | .num _, .str _ | .num _, .list _ _ | .num _, .func _ | .num _, .builtin _ => by simp [okCmp, Tree.cmp]
  | .str _, .num _ | .str _, .list _ _ | .str _, .func _ | .str _, .builtin _ => by simp [okCmp, Tree.cmp]
  | .list _ _, .num _ | .list _ _, .str _ | .list _ _, .func _ | .list _ _, .builtin _ => by simp [okCmp, Tree.cmp]
  | .func _, .num _ | .func _, .str _ | .func _, .list _ _ | .func _, .builtin _ => by simp [okCmp, Tree.cmp]
  | .builtin _, .num _ | .builtin _, .str _ | .builtin _, .list _ _ | .builtin _, .func _ => by simp [okCmp, Tree.cmp]
theorem cmpList_neg_ok : ∀ a b : List Tree, cmpList a b < 0 → okCmpList a b < 0
  | [], [] => by simp [cmpList]
  | [], _ :: _ => by simp [cmpList]
  | _ :: _, [] => by simp [cmpList]
  | a :: l, b :: l' => by
      simp only [cmpList, okCmpList]
      have h0 := cmp_zero_ok a b
      have h1 := cmp_neg_ok a b
      have h2 := cmpList_neg_ok l l'
      split <;> split <;> simp_all
end

end Snek
