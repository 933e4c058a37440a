import Verif.Model.Format
import Verif.Spec.Print
/-!
# C57: printed forms of values
-/
namespace Snek.Format
open Spec.Print

/-- How functions print. -/
def funcText (o : Nat) : List UInt8 := [60, 102, 117, 110, 99, 116, 105, 111, 110, 32, 97, 116, 32] ++ digitsIn 10 false o ++ [62]

/-- How builtins print. -/
def builtinText (L : Lib) (o : Nat) : List UInt8 :=
  if o = 0x7ffffc then [78, 111, 110, 101] else [60, 98, 117, 105, 108, 116, 105, 110, 32] ++ L.name o ++ [62]

/-- A value's printed form. -/
abbrev form (L : Lib) (t : Tree) : List UInt8 := render L.g9 funcText (builtinText L) t
abbrev forms (L : Lib) (l : List Tree) : List (List UInt8) := renders L.g9 funcText (builtinText L) l

/-- A format character that has no case of its own, as `r` and `a`. -/
def Plain (f : UInt8) : Prop := f ≠ 100 ∧ f ≠ 105 ∧ f ≠ 111 ∧ f ≠ 120 ∧ f ≠ 88 ∧ f ≠ 101 ∧ f ≠ 69 ∧ f ≠ 102 ∧ f ≠ 70 ∧ f ≠ 103 ∧ f ≠ 71 ∧ f ≠ 99 ∧ f ≠ 115

theorem sw_plain (L : Lib) {f : UInt8} (hf : Plain f) (t : Tree) : sw L f t = .go f := by
  obtain ⟨h1, h2, h3, h4, h5, h6, h7, h8, h9, h10, h11, h12, h13⟩ := hf
  unfold sw
  simp only [h1, h2, h3, h4, h5, h6, h7, h8, h9, h10, h11, h12, h13, or_self, if_false]

theorem renders_length (num : BitVec 32 → List UInt8) (fn bi : Nat → List UInt8) (l : List Tree) : (renders num fn bi l).length = l.length := by
  induction l with
  | nil => simp [renders]
  | cons t l ih => simp [renders, ih]

/-- What the loop writes, without the separators' cases. -/
def joined (ty : LType) (size : Nat) : Nat → List (List UInt8) → List UInt8
  | _, [] => []
  | o, a :: l => a ++ (if o < size - 1 ∨ (size = 1 ∧ ty = .tuple) then [sep ty o, 32] else []) ++ joined ty size (o + 1) l

theorem joined_commas (ty : LType) (hty : ty ≠ .dict) (size : Nat) : ∀ (l : List (List UInt8)) (o : Nat), o + l.length = size →
    (size = 1 → ty ≠ .tuple) → joined ty size o l = commas l := by
  intro l
  induction l with
  | nil => intros; rfl
  | cons a l ih =>
    intro o h h1
    rw [joined]
    have hs : sep ty o = 44 := by unfold sep; rw [if_neg (fun h => hty h.1)]
    simp only [List.length_cons] at h
    match l, ih with
    | [], _ =>
      rw [if_neg]
      · simp [joined, commas]
      · rintro (h2 | h2)
        · simp only [List.length_nil] at h; omega
        · exact h1 h2.1 h2.2
    | b :: l, ih =>
      rw [if_pos (.inl (by simp only [List.length_cons] at h; omega)), hs, ih (o + 1) (by omega) h1, commas.eq_def (a :: b :: l)]

theorem joined_entries (size : Nat) : ∀ (n : Nat) (l : List (List UInt8)) (o : Nat), l.length = 2 * n → o + l.length = size → o % 2 = 0 →
    joined .dict size o l = commas (entries l) := by
  intro n
  induction n with
  | zero =>
    intro l o hl _ _
    match l, hl with
    | [], _ => rfl
    | _ :: _, hl => simp at hl
  | succ n ih =>
    intro l o hl h ho
    match l, hl with
    | [], hl => simp at hl
    | [_], hl => simp at hl; omega
    | k :: v :: l, hl =>
      simp only [List.length_cons] at hl h
      have h0 : l.length = 2 * n := by omega
      have ih := ih l (o + 1 + 1) h0 (by omega) (by omega)
      rw [joined, joined, ih, entries, if_pos (.inl (by omega))]
      have hs : sep .dict o = 58 := by unfold sep; rw [if_pos ⟨rfl, ho⟩]
      have hs' : sep .dict (o + 1) = 44 := by unfold sep; rw [if_neg (by omega)]
      rw [hs, hs']
      match l, h0 with
      | [], _ =>
        rw [if_neg (by simp only [List.length_nil] at h; rintro (h2 | h2); omega; cases h2.2)]
        simp [entries, commas]
      | [_], h0 => simp at h0; omega
      | a :: b :: l, _ =>
        rw [if_pos (.inl (by simp only [List.length_cons] at h; omega))]
        simp [entries, commas]

mutual
/-- The printed form as the loop makes it. -/
def raw (L : Lib) : Tree → List UInt8
  | .num u => L.g9 u
  | .str s => [39] ++ s ++ [39]
  | .func o => funcText o
  | .builtin o => builtinText L o
  | .list ty l => [opening ty] ++ joined ty l.length 0 (raws L l) ++ [closing ty]
def raws (L : Lib) : List Tree → List (List UInt8)
  | [] => []
  | t :: l => raw L t :: raws L l
end

theorem raws_length (L : Lib) (l : List Tree) : (raws L l).length = l.length := by
  induction l with
  | nil => simp [raws]
  | cons t l ih => simp [raws, ih]

mutual
theorem fmt_raw (L : Lib) {f : UInt8} (hf : Plain f) : ∀ (t : Tree), fmt L f t = some (raw L t)
  | .num u => by simp only [fmt, sw_plain L hf, raw]
  | .str s => by simp only [fmt, sw_plain L hf, raw]
  | .func o => by simp only [fmt, sw_plain L hf, raw, funcText]
  | .builtin o => by
    simp only [fmt, sw_plain L hf, raw, builtinText]
    split <;> rfl
  | .list ty l => by simp only [fmt, sw_plain L hf, elems_raw L hf l, Option.map_some, raw]
theorem elems_raw (L : Lib) {f : UInt8} (hf : Plain f) {ty : LType} {size : Nat} : ∀ (l : List Tree) {o : Nat},
    elems L f ty size o l = some (joined ty size o (raws L l))
  | [], o => by simp only [elems, raws, joined]
  | t :: l, o => by
    simp only [elems, fmt_raw L hf t, elems_raw L hf l, raws, joined]
    rfl
end

mutual
theorem raw_form (L : Lib) : ∀ (t : Tree), Paired t → raw L t = form L t
  | .num u, _ => by simp only [raw, form, render]
  | .str s, _ => by simp only [raw, form, render]
  | .func o, _ => by simp only [raw, form, render]
  | .builtin o, _ => by simp only [raw, form, render]
  | .list ty l, h => by
    have hp : AllPaired l := by cases ty <;> first | exact h | exact h.2
    rw [raw, raws_forms L l hp]
    have hlen := renders_length L.g9 funcText (builtinText L) l
    match ty, h with
    | .list, _ =>
      simp only [form, render, opening, closing]
      rw [joined_commas .list (by decide) l.length _ 0 (by rw [hlen]; omega) (fun _ => by decide)]
    | .tuple, _ =>
      simp only [form, render, opening, closing]
      split
      · rename_i a ha
        have : l.length = 1 := by rw [← hlen, ha]; rfl
        unfold forms
        rw [ha, this]
        simp [joined, sep]
      · rename_i hne
        rw [joined_commas .tuple (by decide) l.length _ 0 (by rw [hlen]; omega)]
        intro h1
        exfalso
        rw [h1] at hlen
        obtain ⟨a, ha⟩ := List.length_eq_one_iff.1 hlen
        exact hne a ha
    | .dict, h =>
      simp only [form, render, opening, closing]
      rw [joined_entries l.length (l.length / 2) _ 0 (by rw [hlen]; have := h.1; omega) (by rw [hlen]; omega) rfl]
theorem raws_forms (L : Lib) : ∀ (l : List Tree), AllPaired l → raws L l = forms L l
  | [], _ => by simp only [raws, forms, renders]
  | t :: l, h => by simp only [raws, raw_form L t h.1, raws_forms L l h.2, forms, renders]
end

theorem fmt_form (L : Lib) {f : UInt8} (hf : Plain f) (t : Tree) (h : Paired t) : fmt L f t = some (form L t) := by
  rw [fmt_raw L hf t, raw_form L t h]

/-- What the prompt shows: the documented form, elements in order. -/
theorem C57_repr (L : Lib) (t : Tree) (h : Paired t) : fmt L 114 t = some (form L t) :=
  fmt_form L (by unfold Plain; decide) t h

/-- What `print` writes: the same, but a string that is not in a container as it is. -/
theorem C57_print (L : Lib) (t : Tree) (h : Paired t) : fmt L 115 t = some (match t with | .str s => s | t => form L t) := by
  have hs : fmt L 97 t = some (form L t) := fmt_form L (by unfold Plain; decide) t h
  cases t with
  | num u => simp [fmt, sw, form, render]
  | str s => simp [fmt, sw]
  | func o => simp [fmt, sw, form, render, funcText]
  | builtin o =>
    simp [fmt, sw, form, render, builtinText]
    split <;> rfl
  | list ty l =>
    rw [← hs, fmt.eq_def, fmt.eq_def]
    have : ∀ ty l, sw L 115 (.list ty l) = .go 97 := by intros; simp [sw]
    have h' : ∀ ty l, sw L 97 (.list ty l) = .go 97 := by intros; simp [sw]
    simp only [this, h']

theorem digit_val (up : Bool) (d : Nat) (h : d < 16) : digitVal (digit up d) = d := by
  revert d; cases up <;> decide

theorem numeral_append (b : Nat) (s : List UInt8) (c : UInt8) : numeral b (s ++ [c]) = numeral b s * b + digitVal c := by
  simp [numeral]

/-- The digits of a number write it. -/
theorem numeral_digits (b : Nat) (hb : 2 ≤ b) (hb' : b ≤ 16) (up : Bool) (n : Nat) : numeral b (digitsIn b up n) = n := by
  rw [digitsIn]
  split
  · rename_i h
    have : n < 16 := by omega
    simp [numeral, digit_val up n this]
  · rename_i h
    have hlt : n / b < n := Nat.div_lt_self (by omega) (by omega)
    have hm : n % b < b := Nat.mod_lt _ (by omega)
    rw [numeral_append, numeral_digits b hb hb' up (n / b), digit_val up _ (by omega), Nat.mul_comm]
    exact Nat.div_add_mod n b
termination_by n

theorem digit_ne (up : Bool) (d : Nat) (h : d < 16) : digit up d ≠ 62 := by
  revert d; cases up <;> decide

theorem digits_ne (b : Nat) (hb : 2 ≤ b) (hb' : b ≤ 16) (up : Bool) (n : Nat) : ∀ c ∈ digitsIn b up n, c ≠ 62 := by
  rw [digitsIn]
  split
  · rename_i h
    intro c hc
    rw [List.mem_singleton] at hc
    rw [hc]; exact digit_ne up n (by omega)
  · rename_i h
    have hlt : n / b < n := Nat.div_lt_self (by omega) (by omega)
    have hm : n % b < b := Nat.mod_lt _ (by omega)
    intro c hc
    rcases List.mem_append.1 hc with hc | hc
    · exact digits_ne b hb hb' up (n / b) c hc
    · rw [List.mem_singleton] at hc
      rw [hc]; exact digit_ne up _ (by omega)
termination_by n

/-- What follows a value inside a container. -/
def isStop (c : UInt8) : Bool := c = 44 ∨ c = 58 ∨ c = 93 ∨ c = 41 ∨ c = 125

def isStart (c : UInt8) : Bool := c = 39 ∨ c = 78 ∨ c = 60 ∨ c = 91 ∨ c = 40 ∨ c = 123

/-- What is used of the C library's `%.9g` and of the names: different numbers (of those in `N`) have different, non-empty texts, without the
characters that separate values and not starting like another kind of value; different builtins (of those in `B`) have different
names, without `>`. -/
structure Distinct (L : Lib) (N : BitVec 32 → Prop) (B : Nat → Prop) : Prop where
  num_inj : ∀ u v, N u → N v → L.g9 u = L.g9 v → u = v
  num_stop : ∀ u, N u → ∀ c ∈ L.g9 u, isStop c = false
  num_start : ∀ u, N u → ∃ c s, L.g9 u = c :: s ∧ isStart c = false
  name_inj : ∀ o p, B o → B p → L.name o = L.name p → o = p
  name_stop : ∀ o, B o → 62 ∉ L.name o

mutual
/-- Values with such numbers and builtins, whose strings have no quotes. -/
def Ok (N : BitVec 32 → Prop) (B : Nat → Prop) : Tree → Prop
  | .num u => N u
  | .str s => 39 ∉ s
  | .func _ => True
  | .builtin o => o = 0x7ffffc ∨ B o
  | .list _ l => AllOk N B l
def AllOk (N : BitVec 32 → Prop) (B : Nat → Prop) : List Tree → Prop
  | [] => True
  | t :: l => Ok N B t ∧ AllOk N B l
end

theorem split_at (D : UInt8 → Prop) : ∀ (a b r r' : List UInt8), (∀ c ∈ a, ¬ D c) → (∀ c ∈ b, ¬ D c) → (∀ c ∈ r.head?, D c) →
    (∀ c ∈ r'.head?, D c) → a ++ r = b ++ r' → a = b ∧ r = r' := by
  intro a
  induction a with
  | nil =>
    intro b r r' _ hb hr _ h
    cases b with
    | nil => exact ⟨rfl, h⟩
    | cons c b =>
      simp only [List.nil_append, List.cons_append] at h
      subst h
      exact absurd (hr c (by simp)) (hb c (by simp))
  | cons c a ih =>
    intro b r r' ha hb hr hr' h
    cases b with
    | nil =>
      simp only [List.nil_append, List.cons_append] at h
      subst h
      exact absurd (hr' c (by simp)) (ha c (by simp))
    | cons d b =>
      simp only [List.cons_append, List.cons.injEq] at h
      obtain ⟨h1, h2⟩ := ih b r r' (fun c hc => ha c (by simp [hc])) (fun c hc => hb c (by simp [hc])) hr hr' h.2
      exact ⟨by rw [h.1, h1], h2⟩

def Stop (r : List UInt8) : Prop := ∀ c ∈ r.head?, isStop c = true

section
variable {L : Lib} {N : BitVec 32 → Prop} {B : Nat → Prop} (hL : Distinct L N B)
include hL

theorem raw_head (t : Tree) (h : Ok N B t) : ∃ c s, raw L t = c :: s ∧ isStop c = false := by
  cases t with
  | num u =>
    obtain ⟨c, s, hs, _⟩ := hL.num_start u h
    exact ⟨c, s, by rw [raw, hs], hL.num_stop u h c (by rw [hs]; simp)⟩
  | str s => exact ⟨39, s ++ [39], by simp [raw], by decide⟩
  | func o => exact ⟨60, _, by simp only [raw, funcText, List.cons_append]; rfl, by decide⟩
  | builtin o =>
    simp only [raw, builtinText]
    split
    · exact ⟨78, _, rfl, by decide⟩
    · exact ⟨60, _, by simp only [List.cons_append]; rfl, by decide⟩
  | list ty l =>
    refine ⟨opening ty, _, by simp only [raw, List.cons_append, List.nil_append]; rfl, ?_⟩
    cases ty <;> decide

theorem num_other {u : BitVec 32} {r r' : List UInt8} {c : UInt8} (h : N u) (hc : isStart c = true) (e : L.g9 u ++ r = c :: r') : False := by
  obtain ⟨d, s, hs, hd⟩ := hL.num_start u h
  rw [hs] at e
  simp only [List.cons_append, List.cons.injEq] at e
  rw [e.1, hc] at hd
  cases hd

mutual
theorem raw_inj : ∀ (t t' : Tree) (r r' : List UInt8), Ok N B t → Ok N B t' → Stop r → Stop r' → raw L t ++ r = raw L t' ++ r' → t = t' ∧ r = r'
  | .num u, .num v, r, r', h, h', hr, hr', e => by
    rw [raw, raw] at e
    obtain ⟨e1, e2⟩ := split_at (fun c => isStop c = true) _ _ _ _ (fun c hc => by rw [hL.num_stop u h c hc]; decide)
      (fun c hc => by rw [hL.num_stop v h' c hc]; decide) hr hr' e
    exact ⟨by rw [hL.num_inj u v h h' e1], e2⟩
  | .num u, .str s, r, r', h, h', hr, hr', e => (num_other hL (c := 39) h (by decide) (by rw [raw, raw] at e; exact e)).elim
  | .num u, .func o, r, r', h, h', hr, hr', e => (num_other hL (c := 60) h (by decide) (by rw [raw, raw] at e; exact e)).elim
  | .num u, .builtin o, r, r', h, h', hr, hr', e => by
    rw [raw, raw, builtinText] at e
    split at e
    · exact (num_other hL (c := 78) h (by decide) e).elim
    · exact (num_other hL (c := 60) h (by decide) e).elim
  | .num u, .list ty l, r, r', h, h', hr, hr', e =>
    (num_other hL (c := opening ty) h (by cases ty <;> decide) (by rw [raw, raw] at e; exact e)).elim
  | .str s, .num u, r, r', h, h', hr, hr', e => (num_other hL (c := 39) h' (by decide) (by rw [raw, raw] at e; exact e.symm)).elim
  | .func o, .num u, r, r', h, h', hr, hr', e => (num_other hL (c := 60) h' (by decide) (by rw [raw, raw] at e; exact e.symm)).elim
  | .builtin o, .num u, r, r', h, h', hr, hr', e => by
    rw [raw, raw, builtinText] at e
    split at e
    · exact (num_other hL (c := 78) h' (by decide) e.symm).elim
    · exact (num_other hL (c := 60) h' (by decide) e.symm).elim
  | .list ty l, .num u, r, r', h, h', hr, hr', e =>
    (num_other hL (c := opening ty) h' (by cases ty <;> decide) (by rw [raw, raw] at e; exact e.symm)).elim
  | .str s, .str s', r, r', h, h', hr, hr', e => by
    simp only [raw, List.append_assoc, List.cons_append, List.nil_append, List.cons.injEq, true_and] at e
    obtain ⟨e1, e2⟩ := split_at (fun c => c = 39) s s' _ _ (fun c hc hc' => h (hc' ▸ hc)) (fun c hc hc' => h' (hc' ▸ hc)) (by simp) (by simp) e
    exact ⟨by rw [e1], (List.cons.inj e2).2⟩
  | .str s, .func o, r, r', h, h', hr, hr', e => by simp [raw, funcText] at e
  | .str s, .builtin o, r, r', h, h', hr, hr', e => by
    rw [raw, raw, builtinText] at e
    split at e <;> simp at e
  | .str s, .list ty l, r, r', h, h', hr, hr', e => by cases ty <;> simp [raw, opening] at e
  | .func o, .str s, r, r', h, h', hr, hr', e => by simp [raw, funcText] at e
  | .func o, .func p, r, r', h, h', hr, hr', e => by
    simp only [raw, funcText, List.append_assoc, List.cons_append, List.nil_append, List.cons.injEq, true_and] at e
    obtain ⟨e1, e2⟩ := split_at (fun c => c = 62) _ _ _ _ (digits_ne 10 (by decide) (by decide) false o)
      (digits_ne 10 (by decide) (by decide) false p) (by simp) (by simp) e
    refine ⟨?_, (List.cons.inj e2).2⟩
    rw [← numeral_digits 10 (by decide) (by decide) false o, e1, numeral_digits 10 (by decide) (by decide)]
  | .func o, .builtin p, r, r', h, h', hr, hr', e => by
    rw [raw, raw, builtinText] at e
    split at e <;> simp [funcText] at e
  | .func o, .list ty l, r, r', h, h', hr, hr', e => by cases ty <;> simp [raw, funcText, opening] at e
  | .builtin o, .str s, r, r', h, h', hr, hr', e => by
    rw [raw, raw, builtinText] at e
    split at e <;> simp at e
  | .builtin o, .func p, r, r', h, h', hr, hr', e => by
    rw [raw, raw, builtinText] at e
    split at e <;> simp [funcText] at e
  | .builtin o, .builtin p, r, r', h, h', hr, hr', e => by
    rw [raw, raw, builtinText, builtinText] at e
    split at e
    · rename_i ho
      split at e
      · rename_i hp; exact ⟨by rw [ho, hp], List.append_cancel_left e⟩
      · simp at e
    · rename_i ho
      split at e
      · simp at e
      · rename_i hp
        simp only [List.append_assoc, List.cons_append, List.nil_append, List.cons.injEq, true_and] at e
        have hb := h.resolve_left ho
        have hb' := h'.resolve_left hp
        obtain ⟨e1, e2⟩ := split_at (fun c => c = 62) _ _ _ _ (fun c hc hc' => hL.name_stop o hb (hc' ▸ hc))
          (fun c hc hc' => hL.name_stop p hb' (hc' ▸ hc)) (by simp) (by simp) e
        exact ⟨by rw [hL.name_inj o p hb hb' e1], (List.cons.inj e2).2⟩
  | .builtin o, .list ty l, r, r', h, h', hr, hr', e => by
    rw [raw, raw, builtinText] at e
    split at e <;> cases ty <;> simp [opening] at e
  | .list ty l, .str s, r, r', h, h', hr, hr', e => by cases ty <;> simp [raw, opening] at e
  | .list ty l, .func o, r, r', h, h', hr, hr', e => by cases ty <;> simp [raw, funcText, opening] at e
  | .list ty l, .builtin o, r, r', h, h', hr, hr', e => by
    rw [raw, raw, builtinText] at e
    split at e <;> cases ty <;> simp [opening] at e
  | .list ty l, .list ty' l', r, r', h, h', hr, hr', e => by
    simp only [raw, List.append_assoc, List.cons_append, List.nil_append, List.cons.injEq] at e
    have ht : ty = ty' := by cases ty <;> cases ty' <;> first | rfl | exact absurd e.1 (by decide)
    subst ht
    obtain ⟨e1, e2⟩ := raws_inj l ty 0 l.length l'.length l' r r' (by omega) (by omega) h h' e.2
    exact ⟨by rw [e1], e2⟩
theorem raws_inj : ∀ (l : List Tree) (ty : LType) (o size size' : Nat) (l' : List Tree) (r r' : List UInt8), o + l.length = size → o + l'.length = size' →
    AllOk N B l → AllOk N B l' →
    joined ty size o (raws L l) ++ closing ty :: r = joined ty size' o (raws L l') ++ closing ty :: r' → l = l' ∧ r = r'
  | [], ty, o, size, size', [], r, r', hs, hs', h, h', e => by
    simp only [raws, joined, List.nil_append, List.cons.injEq, true_and] at e
    exact ⟨rfl, e⟩
  | [], ty, o, size, size', b :: l', r, r', hs, hs', h, h', e => by
    obtain ⟨c, s, ec, hc⟩ := raw_head hL b h'.1
    simp only [raws, joined, ec, List.nil_append, List.cons_append, List.cons.injEq] at e
    rw [← e.1] at hc
    cases ty <;> exact absurd hc (by decide)
  | a :: l, ty, o, size, size', [], r, r', hs, hs', h, h', e => by
    obtain ⟨c, s, ec, hc⟩ := raw_head hL a h.1
    simp only [raws, joined, ec, List.nil_append, List.cons_append, List.cons.injEq] at e
    rw [e.1] at hc
    cases ty <;> exact absurd hc (by decide)
  | a :: l, ty, o, size, size', b :: l', r, r', hs, hs', h, h', e => by
    simp only [raws, joined, List.append_assoc] at e
    have key : ∀ (size : Nat) (l : List Tree) (r : List UInt8), o + (l.length + 1) = size →
        Stop ((if o < size - 1 ∨ (size = 1 ∧ ty = .tuple) then [sep ty o, 32] else []) ++ (joined ty size (o + 1) (raws L l) ++ closing ty :: r)) ∧
        (¬ (o < size - 1 ∨ (size = 1 ∧ ty = .tuple)) → l = []) := by
      intro size l r hs
      have h2 : ¬ (o < size - 1 ∨ (size = 1 ∧ ty = .tuple)) → l = [] := by
        intro hn
        cases l with
        | nil => rfl
        | cons _ _ => exfalso; simp only [List.length_cons] at hs; exact hn (.inl (by omega))
      refine ⟨?_, h2⟩
      split
      · intro c hc
        simp only [List.cons_append, List.head?_cons, Option.mem_some_iff] at hc
        rw [← hc]; unfold sep; split <;> decide
      · rename_i hn
        rw [h2 hn]
        intro c hc
        simp only [raws, joined, List.nil_append, List.head?_cons, Option.mem_some_iff] at hc
        rw [← hc]; cases ty <;> decide
    obtain ⟨k1, k2⟩ := key size l r hs
    obtain ⟨k1', k2'⟩ := key size' l' r' hs'
    obtain ⟨e1, e2⟩ := raw_inj a b _ _ h.1 h'.1 k1 k1' e
    simp only [List.length_cons] at hs hs'
    split at e2
    · split at e2
      · simp only [List.cons_append, List.nil_append, List.cons.injEq, true_and] at e2
        obtain ⟨e3, e4⟩ := raws_inj l ty (o + 1) size size' l' r r' (by omega) (by omega) h.2 h'.2 e2
        exact ⟨by rw [e1, e3], e4⟩
      · rename_i hn
        rw [k2' hn] at e2
        simp only [raws, joined, List.cons_append, List.nil_append, List.cons.injEq] at e2
        exfalso
        have := e2.1
        unfold sep at this
        split at this <;> cases ty <;> exact absurd this (by decide)
    · rename_i hn
      split at e2
      · rw [k2 hn] at e2
        simp only [raws, joined, List.cons_append, List.nil_append, List.cons.injEq] at e2
        exfalso
        have := e2.1
        unfold sep at this
        split at this <;> cases ty <;> exact absurd this (by decide)
      · rename_i hn'
        rw [k2 hn, k2' hn'] at e2 ⊢
        simp only [raws, joined, List.nil_append, List.cons.injEq, true_and] at e2
        exact ⟨by rw [e1], e2⟩
end

/-- Different values print differently. -/
theorem C57_injective (t t' : Tree) (h : Ok N B t) (h' : Ok N B t') (e : fmt L 114 t = fmt L 114 t') : t = t' := by
  rw [fmt_raw L (by unfold Plain; decide), fmt_raw L (by unfold Plain; decide)] at e
  exact (raw_inj hL t t' [] [] h h' (fun _ hc => by cases hc) (fun _ hc => by cases hc) (by simpa using e)).1
end

/-- Quotes inside of strings are not marked: `["a', 'b"]` and `["a", "b"]` look the same. -/
theorem C57_violated_quotes (L : Lib) : fmt L 114 (.list .list [.str [97, 39, 44, 32, 39, 98]]) = fmt L 114 (.list .list [.str [97], .str [98]]) := by
  simp [fmt, elems, sw, opening, closing, sep]

/-- A library: numbers are written as the decimal of their word, builtins are named by theirs. -/
def plainLib : Lib := ⟨32, fun _ _ => [], fun u => digitsIn 10 false u.toNat, fun o => digitsIn 10 false o⟩

theorem digits_all (p : UInt8 → Bool) (hp : ∀ d, d < 10 → p (digit false d) = true) (n : Nat) : ∀ c ∈ digitsIn 10 false n, p c = true := by
  rw [digitsIn]
  split
  · rename_i h
    intro c hc
    rw [List.mem_singleton] at hc
    rw [hc]; exact hp _ (by omega)
  · rename_i h
    intro c hc
    rcases List.mem_append.1 hc with hc | hc
    · exact digits_all p hp (n / 10) c hc
    · rw [List.mem_singleton] at hc
      rw [hc]; exact hp _ (by omega)
termination_by n

theorem digits_inj (n m : Nat) (h : digitsIn 10 false n = digitsIn 10 false m) : n = m := by
  rw [← numeral_digits 10 (by decide) (by decide) false n, h, numeral_digits 10 (by decide) (by decide)]

theorem digits_cons (n : Nat) : ∃ c s, digitsIn 10 false n = c :: s := by
  cases h : digitsIn 10 false n with
  | cons c s => exact ⟨c, s, rfl⟩
  | nil => rw [digitsIn] at h; split at h <;> simp at h

/-- Non-vacuity: there is such a library, and nested values that it prints. -/
theorem plain_distinct : Distinct plainLib (fun _ => True) (fun _ => True) where
  num_inj := fun u v _ _ h => BitVec.eq_of_toNat_eq (digits_inj _ _ h)
  num_stop := fun u _ c hc => by
    have := digits_all (fun c => !isStop c) (by decide) u.toNat c hc
    simpa using this
  num_start := fun u _ => by
    obtain ⟨c, s, h⟩ := digits_cons u.toNat
    have := digits_all (fun c => !isStart c) (by decide) u.toNat c (by rw [h]; simp)
    exact ⟨c, s, h, by simpa using this⟩
  name_inj := fun o p _ _ h => digits_inj _ _ h
  name_stop := fun o _ h => by
    have := digits_all (fun c => c ≠ 62) (by decide) o 62 h
    simp at this

/-- `[1065353216, (2, ), {'a': []}]` -/
example : (∀ t t', Ok (fun _ => True) (fun _ => True) t → Ok (fun _ => True) (fun _ => True) t' → fmt plainLib 114 t = fmt plainLib 114 t' → t = t') ∧
    Ok (fun _ => True) (fun _ => True) (.list .list [.num 0x3f800000#32, .list .tuple [.num 2#32], .list .dict [.str [97], .list .list []]]) ∧
    fmt plainLib 114 (.list .list [.num 0x3f800000#32, .list .tuple [.num 2#32], .list .dict [.str [97], .list .list []]]) =
      some ([91] ++ [49, 48, 54, 53, 51, 53, 51, 50, 49, 54] ++ [44, 32] ++ [40, 50, 44, 32, 41] ++ [44, 32] ++ [123, 39, 97, 39, 58, 32, 91, 93, 125] ++ [93]) := by
  refine ⟨fun t t' h h' e => C57_injective plain_distinct t t' h h' e, by simp [Ok, AllOk], by decide +kernel⟩

end Snek.Format
