import Verif.Proofs.ParseComplete
/-!
# C37: operator precedence and associativity

`Writes (.e 0 x) t` (Spec/Syntax): the tokens `t` are a way to write the expression `x`, by the table of precedence levels.
`lvl k 0` is the parser's `expr` (Model/Parse).
-/
namespace Snek.Parse
open Snek.Vm Snek.Lang Spec.Syntax

theorem finishes_none {h} (f : Finishes h) : contLevel h = none := by
  cases h <;> first | rfl | exact f.elim

theorem Stops.nil (l) : Stops l [] := fun _ _ e => nomatch e
theorem NotAt.nil (l) : NotAt l [] := fun _ _ e => nomatch e

/-- Every way of writing an expression, with any redundant parentheses, is read as that expression. -/
theorem C37_reads {x t} (w : Writes (.e 0 x) t) (rest : List T) (hr : ∀ h ∈ rest.head?, Finishes h) :
    ∃ k0, ∀ k, k0 ≤ k → lvl k 0 (t ++ rest) = some (x, rest) := by
  cases rest with
  | nil => exact (reads w).alone (.nil 0) (.nil 0)
  | cons h r => exact (reads w).before (finishes_none (hr h (by simp)))

/-- Only written expressions are accepted, and the rest is untouched. -/
theorem C37_only {k ts x rest} (h : lvl k 0 ts = some (x, rest)) : ∃ t, ts = t ++ rest ∧ Writes (.e 0 x) t :=
  (sound k).lvl 0 ts x rest (by decide) h

/-- No token sequence writes two different expressions. -/
theorem C37_unique {x y t} (h : Writes (.e 0 x) t) (h' : Writes (.e 0 y) t) : x = y := by
  have := Ev.det (C37_reads h [] (by simp)) (C37_reads h' [] (by simp))
  exact congrArg Prod.fst this

theorem lifts {m l x t} (w : Writes (.e m x) t) (h : l ≤ m) (hm : m ≤ 13) : Writes (.e l x) t := by
  induction m with
  | zero => obtain rfl : l = 0 := by omega
            exact w
  | succ m ih =>
    by_cases e : l = m + 1
    · subst e; exact w
    · exact ih (.lift (by omega) w) (by omega) (by omega)

theorem writes_wrap {m l x t} (w : Writes (.e m x) t) (hm : m ≤ 13) (hl : l ≤ 13) :
    Writes (.e l x) (wrap (decide (m < l)) t) := by
  unfold wrap; split
  · exact lifts (.paren (lifts w (Nat.zero_le _) hm)) hl (Nat.le_refl _)
  · rename_i h
    simp at h
    exact lifts w h hm

theorem level_le (o) : level o ≤ 11 := by cases o <;> decide

mutual
theorem writes_text : (e : Expr) → Fits e = true → ∀ l, l ≤ 13 → Writes (.e l e) (text l e)
  | .num u, _, l, hl => by rw [text]; exact lifts (.num u) hl (Nat.le_refl _)
  | .str u, _, l, hl => by rw [text]; exact lifts (.strs (.str u)) hl (Nat.le_refl _)
  | .name u, _, l, hl => by rw [text]; exact lifts (.name u) hl (Nat.le_refl _)
  | .unary o e, h, l, hl => by
    rw [Fits] at h
    cases o <;> rw [text]
    · exact writes_wrap (.not (writes_text e h 2 (by decide))) (by decide) hl
    · exact writes_wrap (.neg (writes_text e h 10 (by decide))) (by decide) hl
    · exact writes_wrap (.lnot (writes_text e h 10 (by decide))) (by decide) hl
  | .binary o a b, h, l, hl => by
    rw [Fits, Bool.and_eq_true] at h
    by_cases ho : o = .pow
    · subst ho
      rw [text]
      exact writes_wrap (.pow (writes_text a h.1 12 (by decide)) (writes_text b h.2 11 (by decide))) (by decide) hl
    · have := level_le o
      rw [text]
      · exact writes_wrap (.bin ho (writes_text a h.1 _ (by omega)) (writes_text b h.2 _ (by omega))) (by omega) hl
      · exact ho
  | .and a b, h, l, hl => by
    rw [Fits, Bool.and_eq_true] at h
    rw [text]
    exact writes_wrap (.and (writes_text a h.1 1 (by decide)) (writes_text b h.2 2 (by decide))) (by decide) hl
  | .or a b, h, l, hl => by
    rw [Fits, Bool.and_eq_true] at h
    rw [text]
    exact writes_wrap (.or (writes_text a h.1 0 (by decide)) (writes_text b h.2 1 (by decide))) (by decide) hl
  | .cmp a r b c, h, l, hl => by
    rw [Fits, Bool.and_eq_true, Bool.and_eq_true] at h
    rw [text]
    exact writes_wrap (.cmp (writes_text a h.1.1 4 (by decide)) (.op r) (writes_text b h.1.2 4 (by decide)) (writes_chain c h.2))
      (by decide) hl
  | .index a i, h, l, hl => by
    rw [Fits, Bool.and_eq_true] at h
    rw [text]
    exact writes_wrap (.index (writes_text a h.1 12 (by decide)) (writes_text i h.2 0 (by decide))) (by decide) hl
  | .slice a s e d, h, l, hl => by
    simp only [Fits, Bool.and_eq_true] at h
    cases d with
    | none =>
      rw [text]
      exact writes_wrap (.slice (writes_text a h.1.1.1 12 (by decide)) (writes_opt s h.1.1.2) (writes_opt e h.1.2)) (by decide) hl
    | some d =>
      rw [text]
      · exact writes_wrap (.stride (writes_text a h.1.1.1 12 (by decide)) (writes_opt s h.1.1.2) (writes_opt e h.1.2)
          (writes_opt (.some d) h.2)) (by decide) hl
      · simp
  | .call f es ns, h, l, hl => by
    simp only [Fits, Bool.and_eq_true, decide_eq_true_eq] at h
    have hf := writes_text f h.1.1.1 12 (by decide)
    cases ns with
    | nil =>
      rw [text]
      refine writes_wrap (.call hf ?_) (by decide) hl
      exact writes_acts es h.1.1.2 h.2
    | cons x e ns =>
      have hn := writes_named x e ns h.1.2
      cases es with
      | nil =>
        rw [text]
        · exact writes_wrap (.call hf (.acts1 hn (by simp [Exprs.length]))) (by decide) hl
        · simp
      | cons e1 es =>
        rw [text]
        · exact writes_wrap (.call hf (.acts1 (writes_args e1 es h.1.1.2 _ _ hn) h.2)) (by decide) hl
        · simp
        · simp
  | .build k es, h, l, hl => by
    cases k with
    | list =>
      simp only [Fits, Bool.and_eq_true, decide_eq_true_eq] at h
      rw [text]
      exact lifts (.list (writes_acts es h.1 (by omega)) h.2) hl (Nat.le_refl _)
    | dict =>
      simp only [Fits, Bool.and_eq_true] at h
      rw [text]
      exact lifts (.dict (writes_dict es h.1 h.2)) hl (Nat.le_refl _)
    | tuple =>
      simp only [Fits, Bool.and_eq_true, decide_eq_true_eq] at h
      cases es with
      | nil => rw [text]; exact lifts .tuple0 hl (Nat.le_refl _)
      | cons e es =>
        simp only [FitsL, Bool.and_eq_true, Exprs.length] at h
        rw [text]
        exact lifts (.tuple (writes_text e h.1.1 0 (by decide)) (writes_acts es h.1.2 (by omega)) (by omega)) hl (Nat.le_refl _)
termination_by e => sizeOf e
decreasing_by all_goals (subst_vars; simp_wf; try omega)
theorem writes_chain : (c : Chain) → FitsC c = true → Writes (.chain c) (textChain c)
  | .nil, _ => by rw [textChain]; exact .chain0
  | .cons r e c, h => by
    rw [FitsC, Bool.and_eq_true] at h
    rw [textChain]; exact .chain1 (.op r) (writes_text e h.1 4 (by decide)) (writes_chain c h.2)
termination_by c => sizeOf c
decreasing_by all_goals (subst_vars; simp_wf; try omega)
theorem writes_opt : (o : OptE) → FitsO o = true → Writes (.opt o) (textOpt o)
  | .none, _ => by rw [textOpt]; exact .opt0
  | .some e, h => by rw [textOpt]; exact .opt1 (writes_text e h 0 (by decide))
termination_by o => sizeOf o
decreasing_by all_goals (subst_vars; simp_wf; try omega)
theorem writes_acts : (es : Exprs) → FitsL es = true → es.length ≤ 256 → Writes (.acts es .nil) (texts es)
  | .nil, _, _ => by rw [texts]; exact .acts0
  | .cons e es, h, hl => .acts1 (writes_args0 e es h) hl
termination_by es => sizeOf es
decreasing_by all_goals (subst_vars; simp_wf; try omega)
theorem writes_args0 : (e : Expr) → (es : Exprs) → FitsL (.cons e es) = true → Writes (.args (.cons e es) .nil) (texts (.cons e es))
  | e, .nil, h => by
    rw [FitsL, Bool.and_eq_true] at h
    rw [texts]; exact .pos1 (writes_text e h.1 0 (by decide))
  | e, .cons e2 es, h => by
    rw [FitsL, Bool.and_eq_true] at h
    rw [texts]
    · exact .posC (writes_text e h.1 0 (by decide)) (writes_args0 e2 es h.2)
    · simp
termination_by e es => sizeOf e + sizeOf es
decreasing_by all_goals (subst_vars; simp_wf; try omega)
theorem writes_args : (e : Expr) → (es : Exprs) → FitsL (.cons e es) = true → ∀ ns u, Writes (.args .nil ns) u →
    Writes (.args (.cons e es) ns) (texts (.cons e es) ++ .comma :: u)
  | e, .nil, h, ns, u, w => by
    rw [FitsL, Bool.and_eq_true] at h
    rw [texts]; exact .posC (writes_text e h.1 0 (by decide)) w
  | e, .cons e2 es, h, ns, u, w => by
    rw [FitsL, Bool.and_eq_true] at h
    rw [texts]
    · rw [List.append_assoc, List.cons_append]
      exact .posC (writes_text e h.1 0 (by decide)) (writes_args e2 es h.2 ns u w)
    · simp
termination_by e es => sizeOf e + sizeOf es
decreasing_by all_goals (subst_vars; simp_wf; try omega)
theorem writes_named : (x : Nat) → (e : Expr) → (ns : Named) → FitsN (.cons x e ns) = true →
    Writes (.args .nil (.cons x e ns)) (textNamed (.cons x e ns))
  | x, e, .nil, h => by
    rw [FitsN, Bool.and_eq_true] at h
    rw [textNamed]; exact .nam1 (t := [.name x]) .plain (lifts (.name x) (by decide) (Nat.le_refl _)) (writes_text e h.1 0 (by decide))
  | x, e, .cons y f ns, h => by
    rw [FitsN, Bool.and_eq_true] at h
    rw [textNamed]
    · exact .namC (t := [.name x]) .plain (lifts (.name x) (by decide) (Nat.le_refl _)) (writes_text e h.1 0 (by decide))
        (writes_named y f ns h.2)
    · simp
termination_by _ e ns => sizeOf e + sizeOf ns
decreasing_by all_goals (subst_vars; simp_wf; try omega)
theorem writes_dict : (es : Exprs) → FitsL es = true → Paired es = true → Writes (.ents es) (textPairs es)
  | .nil, _, _ => by
    rw [textPairs]
    · exact .ents0
    · simp
    · simp
  | .cons _ .nil, _, p => by simp [Paired] at p
  | .cons k (.cons v es), h, p => .ents1 (writes_pairs k v es h p)
termination_by es => sizeOf es
decreasing_by all_goals (subst_vars; simp_wf; try omega)
theorem writes_pairs : (k v : Expr) → (es : Exprs) → FitsL (.cons k (.cons v es)) = true → Paired (.cons k (.cons v es)) = true →
    Writes (.pairs (.cons k (.cons v es))) (textPairs (.cons k (.cons v es)))
  | k, v, .nil, h, p => by
    simp only [FitsL, Bool.and_eq_true] at h
    rw [textPairs]; exact .pair (writes_text k h.1 0 (by decide)) (writes_text v h.2.1 0 (by decide))
  | k, v, .cons _ .nil, h, p => by simp [Paired] at p
  | k, v, .cons k2 (.cons v2 es), h, p => by
    rw [FitsL, Bool.and_eq_true, FitsL, Bool.and_eq_true] at h
    rw [textPairs]
    · exact .pairC (writes_text k h.1 0 (by decide)) (writes_text v h.2.1 0 (by decide)) (writes_pairs k2 v2 es h.2.2 p)
    · simp
termination_by k v es => sizeOf k + sizeOf v + sizeOf es
decreasing_by all_goals (subst_vars; simp_wf; try omega)
end

/-- Any expression, written with the parentheses its operators' levels and associativity require and no others, is read back
as the same tree. -/
theorem C37_roundtrip (e : Expr) (h : Fits e = true) (rest : List T) (hr : ∀ t ∈ rest.head?, Finishes t) :
    ∃ k0, ∀ k, k0 ≤ k → lvl k 0 (text 0 e ++ rest) = some (e, rest) :=
  C37_reads (writes_text e h 0 (by decide)) rest hr

/-- Two different expressions are never written the same way. -/
theorem C37_injective (e f : Expr) (he : Fits e = true) (hf : Fits f = true) (h : text 0 e = text 0 f) : e = f :=
  C37_unique (writes_text e he 0 (by decide)) (h ▸ writes_text f hf 0 (by decide))

/-- `2 ** -1` cannot be written without parentheses, unlike in Python: it is a syntax error. -/
theorem C37_violated_pow (k : Nat) (x : Expr) (rest : List T) :
    lvl k 0 [.number 0x40000000#32, .bin .pow, .bin .minus, .number 0x3f800000#32] ≠ some (x, rest) := by
  suffices lvl k 0 [.number 0x40000000#32, .bin .pow, .bin .minus, .number 0x3f800000#32] = none by rw [this]; exact nofun
  rcases Nat.lt_or_ge k 40 with h | h
  · exact (by decide +kernel : ∀ k < 40, lvl k 0 [.number 0x40000000#32, .bin .pow, .bin .minus, .number 0x3f800000#32] = none) k h
  · obtain ⟨j, rfl⟩ : ∃ j, k = j + 40 := ⟨k - 40, by omega⟩
    simp [Snek.Parse.lvl, Snek.Parse.prim, Snek.Parse.tail, binTok, relTok, contLevel]

section example_
/-- `a - b - c`: left to right. -/
example : text 0 (.binary .minus (.binary .minus (.name 1) (.name 2)) (.name 3))
    = [.name 1, .bin .minus, .name 2, .bin .minus, .name 3] := by decide +kernel
/-- `a - (b - c)` needs them. -/
example : text 0 (.binary .minus (.name 1) (.binary .minus (.name 2) (.name 3)))
    = [.name 1, .bin .minus, .op, .name 2, .bin .minus, .name 3, .cp] := by decide +kernel
/-- `a ** b ** c`: right to left; `-a ** b` is `-(a ** b)`; `not a < b`. -/
example : text 0 (.unary .not (.cmp (.unary .uminus (.binary .pow (.name 1) (.binary .pow (.name 2) (.name 3)))) (.cmp .lt) (.name 4) .nil))
    = [.kw .not, .bin .minus, .name 1, .bin .pow, .name 2, .bin .pow, .name 3, .cmpop (.cmp .lt), .name 4] := by decide +kernel
/-- The parser on `f(a, b=1)[i + 1 :] or not x`. -/
example : (lvl 60 0 [.name 1, .op, .name 2, .comma, .name 3, .assign .plain, .number 0x3f800000#32, .cp, .os, .name 4, .bin .plus,
      .number 0x3f800000#32, .colon, .cs, .kw .or, .kw .not, .name 5, .nl]).isSome = true := by decide +kernel
example : Fits (.call (.name 1) (.cons (.name 2) .nil) (.cons 3 (.num 0) .nil)) = true := by decide +kernel
end example_

end Snek.Parse
