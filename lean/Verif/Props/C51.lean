import Verif.Props.C57
/-!
# C51: string formatting
-/
namespace Snek.Format
open Spec.Print

/-- The texts of the conversions, where they are defined. -/
def textOf (L : Lib) (f : UInt8) (t : Tree) : List UInt8 := (fmt L f t).getD []

theorem interLoop_lit (L : Lib) (data : List Tree) (c : UInt8) (hc : c ≠ 37) (a : List UInt8) (o : Nat) (r : List UInt8) :
    interLoop L data (c :: a) o r = interLoop L data a o (r ++ [c]) := by
  rw [interLoop.eq_def]
  split
  · rename_i h; cases h
  · rename_i h; exact absurd (List.cons.inj h).1 hc
  · rename_i h; exact absurd (List.cons.inj h).1 hc
  · rename_i h; obtain ⟨rfl, rfl⟩ := List.cons.inj h; rfl

theorem pieces_lit (c : UInt8) (hc : c ≠ 37) (a : List UInt8) : pieces (c :: a) = (pieces a).map (.lit c :: ·) := by
  rw [pieces.eq_def]
  split
  · rename_i h; cases h
  · rename_i h; exact absurd (List.cons.inj h).1 hc
  · rename_i h; exact absurd (List.cons.inj h).1 hc
  · rename_i h; obtain ⟨rfl, rfl⟩ := List.cons.inj h; rfl

/-- What the loop does, from argument `o` on. -/
theorem loop_spec (L : Lib) (data : List Tree) (hd : ∀ f, ∀ t ∈ data, fmt L f t ≠ none) : ∀ (n : Nat) (a : List UInt8), a.length ≤ n →
    ∀ (o : Nat) (r : List UInt8), o ≤ data.length →
    match pieces a with
    | none => ∃ r', interLoop L data a o r = some (data.length + 1, r')
    | some ps => (arity ps ≤ data.length - o → interLoop L data a o r = some (o + arity ps, r ++ fill (textOf L) ps (data.drop o))) ∧
      (¬ arity ps ≤ data.length - o → ∃ r', interLoop L data a o r = some (data.length + 1, r')) := by
  -- once there is an argument missing, the count stays wrong
  have stuck : ∀ (n : Nat) (a : List UInt8), a.length ≤ n → ∀ r, ∃ r', interLoop L data a (data.length + 1) r = some (data.length + 1, r') := by
    intro n
    induction n with
    | zero =>
      intro a ha r
      match a, ha with
      | [], _ => exact ⟨r, by rw [interLoop]⟩
    | succ n ih =>
      intro a ha r
      match a, ha with
      | [], _ => exact ⟨r, by rw [interLoop]⟩
      | c :: a, ha =>
        simp only [List.length_cons] at ha
        by_cases hc : c = 37
        · subst hc
          match a, ha with
          | [], _ => exact ⟨r, by rw [interLoop]⟩
          | f :: a, ha =>
            simp only [List.length_cons] at ha
            rw [interLoop]
            split
            · exact ih a (by omega) _
            · rw [List.getElem?_eq_none (by omega)]
              exact ih a (by omega) _
        · rw [interLoop_lit L data c hc]
          exact ih a (by omega) _
  intro n
  induction n with
  | zero =>
    intro a ha o r ho
    match a, ha with
    | [], _ => simp [pieces, interLoop, arity, fill]
  | succ n ih =>
    intro a ha o r ho
    match a, ha with
    | [], _ => simp [pieces, interLoop, arity, fill]
    | c :: a, ha =>
      simp only [List.length_cons] at ha
      by_cases hc : c = 37
      · subst hc
        match a, ha with
        | [], _ => simp [pieces, interLoop]
        | f :: a, ha =>
          simp only [List.length_cons] at ha
          rw [interLoop, pieces]
          by_cases hf : f = 37
          · rw [if_pos hf, if_pos hf]
            have := ih a (by omega) o (r ++ [37]) ho
            split at this
            · rename_i h; rw [h]; exact this
            · rename_i ps h
              rw [h]
              simpa [arity, fill] using this
          · rw [if_neg hf, if_neg hf]
            by_cases hlt : o < data.length
            · obtain ⟨t, ht⟩ : ∃ t, data[o]? = some t := ⟨_, List.getElem?_eq_getElem hlt⟩
              have hmem : t ∈ data := List.mem_of_getElem? ht
              obtain ⟨s, hs⟩ := Option.ne_none_iff_exists'.1 (hd f t hmem)
              simp only [ht, hs]
              have hdrop : data.drop o = t :: data.drop (o + 1) := by
                rw [List.drop_eq_getElem_cons hlt]
                rw [List.getElem?_eq_getElem hlt] at ht
                rw [Option.some.inj ht]
              have := ih a (by omega) (o + 1) (r ++ s) (by omega)
              split at this
              · rename_i h; rw [h]; exact this
              · rename_i ps h
                rw [h]
                simp only [Option.map_some, arity, fill, hdrop, textOf, hs, Option.getD_some]
                refine ⟨fun har => ?_, fun har => this.2 (by omega)⟩
                rw [this.1 (by omega), List.append_assoc]
                congr 2; omega
            · have ho' : o = data.length := by omega
              rw [List.getElem?_eq_none (by omega)]
              simp only
              cases hp : pieces a with
              | none => exact stuck _ a (Nat.le_refl _) r
              | some ps =>
                simp only [Option.map_some, arity]
                exact ⟨fun h => by omega, fun _ => stuck _ a (Nat.le_refl _) r⟩
      · rw [interLoop_lit L data c hc, pieces_lit c hc]
        have := ih a (by omega) o (r ++ [c]) ho
        split at this
        · rename_i h; rw [h]; exact this
        · rename_i ps h
          rw [h]
          simpa [arity, fill] using this

/-- The whole behaviour of `%` on a string that is not empty, where the conversions of all arguments are defined: a string with the
conversions replaced in order if the format is one and takes as many arguments as there are, otherwise an error. -/
theorem C51_format (L : Lib) (a : List UInt8) (p : Tree) (ha : a ≠ []) (hd : ∀ f, ∀ t ∈ argsOf p, fmt L f t ≠ none) :
    interpolate L a p = match pieces a with
      | some ps => if arity ps = (argsOf p).length then .str (fill (textOf L) ps (argsOf p)) else .error
      | none => .error := by
  have := loop_spec L (argsOf p) hd _ a (Nat.le_refl _) 0 [] (Nat.zero_le _)
  unfold interpolate
  split at this
  · rename_i h
    obtain ⟨r, hr⟩ := this
    rw [hr, h]
    exact if_pos (by omega)
  · rename_i ps h
    rw [h]
    simp only [Nat.sub_zero, List.drop_zero, List.nil_append, Nat.zero_add] at this
    by_cases har : arity ps = (argsOf p).length
    · have := this.1 (by omega)
      simp only [this, har, ne_eq, not_true_eq_false, if_false, if_neg ha, if_true]
    · simp only [if_neg har]
      by_cases hle : arity ps ≤ (argsOf p).length
      · rw [this.1 hle]; exact if_pos har
      · obtain ⟨r, hr⟩ := this.2 hle
        rw [hr]; exact if_pos (by omega)

mutual
/-- The numbers in a value that fit in an `int`. -/
def InRange (w : Nat) : Tree → Prop
  | .num u => ∃ i, fToInt w u = some i
  | .list _ l => AllInRange w l
  | _ => True
def AllInRange (w : Nat) : List Tree → Prop
  | [] => True
  | t :: l => InRange w t ∧ AllInRange w l
end

theorem sw_defined (L : Lib) (t : Tree) (h : InRange L.intBits t) (f : UInt8) : sw L f t ≠ .done none := by
  have : ∀ u, t = .num u → asInt L f u ≠ none := by
    intro u hu
    subst hu
    obtain ⟨i, hi⟩ := h
    simp [asInt, hi]
  intro hs
  unfold sw at hs
  repeat' split at hs
  all_goals first
    | (cases hs; done)
    | (rename_i u; exact this u rfl (Sw.done.inj hs))
    | cases hs

mutual
/-- Formatting is defined for values whose numbers fit in an `int`. -/
theorem C51_defined (L : Lib) : ∀ (t : Tree), InRange L.intBits t → ∀ f, fmt L f t ≠ none
  | .num u, h, f => by
    have := sw_defined L _ h f
    rw [fmt]
    split
    · rename_i r hr; intro e; rw [e] at hr; exact this hr
    · simp
  | .str s, h, f => by
    have := sw_defined L _ h f
    rw [fmt]
    split
    · rename_i r hr; intro e; rw [e] at hr; exact this hr
    · simp
  | .func o, h, f => by
    have := sw_defined L _ h f
    rw [fmt]
    split
    · rename_i r hr; intro e; rw [e] at hr; exact this hr
    · simp
  | .builtin o, h, f => by
    have := sw_defined L _ h f
    rw [fmt]
    split
    · rename_i r hr; intro e; rw [e] at hr; exact this hr
    · split <;> simp
  | .list ty l, h, f => by
    have := sw_defined L _ h f
    rw [fmt]
    split
    · rename_i r hr; intro e; rw [e] at hr; exact this hr
    · intro e
      exact elems_defined L l h _ ty _ _ (Option.map_eq_none_iff.1 e)
theorem elems_defined (L : Lib) : ∀ (l : List Tree), AllInRange L.intBits l → ∀ f ty size o, elems L f ty size o l ≠ none
  | [], _, f, ty, size, o => by simp [elems]
  | t :: l, h, f, ty, size, o => by
    obtain ⟨a, ha⟩ := Option.ne_none_iff_exists'.1 (C51_defined L t h.1 f)
    obtain ⟨b, hb⟩ := Option.ne_none_iff_exists'.1 (elems_defined L l h.2 f ty size (o + 1))
    simp [elems, ha, hb]
end

/-- An empty format with no arguments is not the empty string but `None`. -/
theorem C51_violated_empty (L : Lib) : interpolate L [] (.list .tuple []) = .null := by simp [interpolate, interLoop, argsOf]

/-- The arguments are the elements of a list or a tuple; any other value, also a dictionary, is the one argument. -/
theorem C51_arguments (l : List Tree) (u : BitVec 32) (s : List UInt8) :
    argsOf (.list .tuple l) = l ∧ argsOf (.list .list l) = l ∧ argsOf (.list .dict l) = [.list .dict l] ∧
    argsOf (.num u) = [.num u] ∧ argsOf (.str s) = [.str s] := ⟨rfl, rfl, rfl, rfl, rfl⟩

/-- `%d` and `%i` write the integer part of a number in decimal, `%x`, `%X` and `%o` its two's complement in their base. -/
theorem C51_integers (L : Lib) (u : BitVec 32) (i : Int) (hi : fToInt L.intBits u = some i) :
    (∀ f, f = 100 ∨ f = 105 → ∃ s, fmt L f (.num u) = some ((if i < 0 then [45] else []) ++ s) ∧ numeral 10 s = i.natAbs) ∧
    (∀ f b, (f = 111 ∧ b = 8) ∨ (f = 120 ∧ b = 16) ∨ (f = 88 ∧ b = 16) →
      ∃ s, fmt L f (.num u) = some s ∧ (numeral b s : Int) = i % 2 ^ L.intBits) := by
  constructor
  · intro f hf
    refine ⟨digitsIn 10 false i.natAbs, ?_, numeral_digits 10 (by decide) (by decide) _ _⟩
    have : sw L f (.num u) = .done (asInt L f u) := by
      unfold sw; rcases hf with rfl | rfl <;> rfl
    rw [fmt, this]
    simp only [asInt, hi, Option.map_some, sprintInt, if_pos hf]
  · intro f b hf
    have hpos : (0 : Int) < 2 ^ L.intBits := Int.pow_pos (by decide)
    have hnn : ((i % 2 ^ L.intBits).toNat : Int) = i % 2 ^ L.intBits := Int.toNat_of_nonneg (Int.emod_nonneg _ (by omega))
    have : sw L f (.num u) = .done (asInt L f u) := by
      unfold sw; rcases hf with ⟨rfl, _⟩ | ⟨rfl, _⟩ | ⟨rfl, _⟩ <;> rfl
    rw [fmt, this]
    simp only [asInt, hi, Option.map_some]
    rcases hf with ⟨rfl, rfl⟩ | ⟨rfl, rfl⟩ | ⟨rfl, rfl⟩
    all_goals
      refine ⟨_, rfl, ?_⟩
      rw [← hnn]
      congr 1
    · exact numeral_digits 8 (by decide) (by decide) _ _
    · exact numeral_digits 16 (by decide) (by decide) _ _
    · exact numeral_digits 16 (by decide) (by decide) _ _

/-- `%s` writes a string as it is and `%c` its first character; everything else is written in its printed form (C57) by `%s` and by every
conversion that does not apply to it. -/
theorem C51_strings (L : Lib) (s : List UInt8) :
    fmt L 115 (.str s) = some s ∧ (∀ c, c ≠ 0 → fmt L 99 (.str (c :: s)) = some [c]) ∧
    ∀ f, f ≠ 99 → f ≠ 115 → fmt L f (.str s) = some ([39] ++ s ++ [39]) := by
  refine ⟨by simp [fmt, sw], fun c hc => ?_, fun f h1 h2 => ?_⟩
  · have : sw L 99 (.str (c :: s)) = .done (some (sprintInt L 99 (charInt c))) := by simp [sw]
    rw [fmt, this]
    have hm : (charInt c % 256).toNat = c.toNat := by
      have := c.toNat_lt
      unfold charInt
      split <;> omega
    have hz : c.toNat ≠ 0 := fun h => hc (UInt8.toNat_inj.1 h)
    simp [sprintInt, hm, hz]
  · have : sw L f (.str s) = .go f := by
      unfold sw
      split
      · rfl
      · split
        · rfl
        · rfl
    rw [fmt, this]

/-- Non-vacuity: "%d%% of %s" % (42.0, "x") is "42% of x", and both conversions are defined for all arguments. -/
example : pieces [37, 100, 37, 37, 32, 37, 115] = some [.conv 100, .lit 37, .lit 32, .conv 115] ∧
    (∀ f, ∀ t ∈ argsOf (.list .tuple [.num (intToF 42), .str [120]]), fmt plainLib f t ≠ none) ∧
    interpolate plainLib [37, 100, 37, 37, 32, 37, 115] (.list .tuple [.num (intToF 42), .str [120]]) = .str [52, 50, 37, 32, 120] ∧
    interpolate plainLib [37, 100, 37, 37, 32, 37, 115] (.list .tuple [.num (intToF 42)]) = .error ∧
    interpolate plainLib [37, 100] (.list .tuple [.num (intToF 42), .num 0]) = .error ∧
    interpolate plainLib [120, 37] (.list .tuple []) = .error := by
  refine ⟨by decide +kernel, ?_, by decide +kernel, by decide +kernel, by decide +kernel, by decide +kernel⟩
  intro f t ht
  have hi : fToInt 32 (intToF 42) = some 42 := by decide +kernel
  refine C51_defined plainLib t ?_ f
  simp only [argsOf, List.mem_cons, List.not_mem_nil, or_false] at ht
  rcases ht with rfl | rfl
  · exact ⟨42, hi⟩
  · trivial

end Snek.Format
