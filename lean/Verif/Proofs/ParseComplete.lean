import Verif.Proofs.ParseSound
/-! Whatever is written is accepted, and read as the tree it writes. -/
namespace Snek.Parse
open Snek.Vm Snek.Lang Spec.Syntax

/-- For all sufficiently large fuel. -/
def Ev (p : Nat → Prop) : Prop := ∃ k0, ∀ k, k0 ≤ k → p k

theorem Ev.of {p : Nat → Prop} (h : ∀ k, p (k+1)) : Ev p := ⟨1, fun k hk => by
  obtain ⟨j, rfl⟩ : ∃ j, k = j + 1 := ⟨k - 1, by omega⟩
  exact h j⟩

theorem Ev.step {p q : Nat → Prop} (h : Ev p) (i : ∀ k, p k → q (k+1)) : Ev q := by
  obtain ⟨k0, h⟩ := h
  refine ⟨k0 + 1, fun k hk => ?_⟩
  obtain ⟨j, rfl⟩ : ∃ j, k = j + 1 := ⟨k - 1, by omega⟩
  exact i j (h j (by omega))

theorem Ev.mono {p q : Nat → Prop} (h : Ev p) (i : ∀ k, p k → q k) : Ev q := by
  obtain ⟨k0, h⟩ := h
  exact ⟨k0, fun k hk => i k (h k hk)⟩

theorem Ev.and {p q : Nat → Prop} (h : Ev p) (i : Ev q) : Ev (fun k => p k ∧ q k) := by
  obtain ⟨a, h⟩ := h
  obtain ⟨b, i⟩ := i
  exact ⟨max a b, fun k hk => ⟨h k (by omega), i k (by omega)⟩⟩

theorem Ev.det {α} {f : Nat → Option α} {a b} (h : Ev fun k => f k = some a) (i : Ev fun k => f k = some b) : a = b := by
  obtain ⟨k, h⟩ := h.and i
  have := h k (Nat.le_refl k)
  exact Option.some.inj (this.1.symm.trans this.2)

/-- The level a token continues an expression at. -/
def contLevel : T → Option Nat
  | .kw .or => some 0 | .kw .and => some 1 | .cmpop _ => some 3 | .kw .in_ => some 3 | .kw .is => some 3
  | .bin o => some (level o) | .os => some 12 | .op => some 12 | .string _ => some 13 | _ => none

/-- The next token does not extend an expression of a level. -/
def Stops (l : Nat) (rest : List T) : Prop :=
  ∀ h r, rest = h :: r → ∀ m, contLevel h = some m → m ≤ l ∧ (l = 3 ∨ l = 11 ∨ l = 13 → m < l)

theorem Stops.of_none {h r} (l) (e : contLevel h = none) : Stops l (h :: r) := by
  intro h' r' e' m hm
  cases e'; rw [e] at hm; cases hm

theorem Stops.up {l rest} (h : Stops l rest) : Stops (l+1) rest := by
  intro a r e m hm
  have := h a r e m hm
  omega

/-- Nothing at this level follows. -/
def NotAt (l : Nat) (rest : List T) : Prop := ∀ h r, rest = h :: r → contLevel h ≠ some l

theorem Stops.notAt {l rest} (h : Stops l rest) : NotAt (l+1) rest := by
  intro a r e hm
  have := h a r e _ hm
  omega

theorem relTok_none {t} (h : contLevel t ≠ some 3) : relTok t = none := by
  unfold relTok; split <;> first | rfl | exact absurd rfl h

theorem binTok_none {l t} (h : contLevel t ≠ some l) : binTok l t = none := by
  cases e : binTok l t with
  | none => rfl
  | some o =>
    obtain ⟨rfl, rfl, -⟩ := binTok_some e
    exact absurd rfl h

theorem tail_stop (k l x rest) (h : NotAt l rest) : tail (k+1) l x rest = some (x, rest) := by
  rw [Snek.Parse.tail.eq_def]
  split <;> first
    | (cases ‹k + 1 = _›; exact absurd rfl (h _ _ rfl))
    | (cases ‹k + 1 = _›; rw [relTok_none (h _ _ rfl)])
    | (cases ‹k + 1 = _›; rw [binTok_none (h _ _ rfl)])
    | rfl
    | contradiction

theorem tail_or (k a ts) : tail (k+1) 0 a (.kw .or :: ts) = (lvl k 1 ts >>= fun p => tail k 0 (.or a p.1) p.2) := by
  rw [Snek.Parse.tail]

theorem tail_and (k a ts) : tail (k+1) 1 a (.kw .and :: ts) = (lvl k 2 ts >>= fun p => tail k 1 (.and a p.1) p.2) := by
  rw [Snek.Parse.tail]

theorem tail_pow (k a ts) : tail (k+1) 11 a (.bin .pow :: ts) = (lvl k 11 ts >>= fun p => some (.binary .pow a p.1, p.2)) := by
  rw [Snek.Parse.tail]

theorem tail_rel (k a t ts r) (h : relTok t = some r) :
    tail (k+1) 3 a (t :: ts) = (lvl k 4 ts >>= fun p => chain k p.2 >>= fun q => some (.cmp a r p.1 q.1, q.2)) := by
  rw [Snek.Parse.tail]; simp only [h]

theorem chain_rel (k t ts r) (h : relTok t = some r) :
    chain (k+1) (t :: ts) = (lvl k 4 ts >>= fun p => chain k p.2 >>= fun q => some (.cons r p.1 q.1, q.2)) := by
  rw [Snek.Parse.chain]; simp only [h]

theorem chain_stop (k ts) (h : NotAt 3 ts) : chain (k+1) ts = some (.nil, ts) := by
  rw [Snek.Parse.chain.eq_def]
  split
  · contradiction
  · rw [relTok_none (h _ _ rfl)]
  · rfl

theorem binTok_level (o : BinOp) (h : o ≠ .pow) : binTok (level o) (.bin o) = some o := by
  cases o <;> first | rfl | exact absurd rfl h

theorem tail_bin (k a o ts) (h : o ≠ .pow) : tail (k+1) (level o) a (.bin o :: ts) =
    (lvl k (level o + 1) ts >>= fun p => tail k (level o) (.binary o a p.1) p.2) := by
  cases o <;> first | exact absurd rfl h | (rw [level, Snek.Parse.tail] <;> first | (simp [binTok]; done) | skip)

/-- Tokens that can begin an expression of a level. -/
def first (l : Nat) (h : T) : Prop :=
  startsExpr [h] = true ∧ (3 ≤ l → h ≠ .kw .not) ∧ (11 ≤ l → h ≠ .lnot ∧ h ≠ .bin .minus ∧ h ≠ .bin .plus)

theorem first.mono {l m h} (f : first l h) (hm : m ≤ l) : first m h :=
  ⟨f.1, fun a => f.2.1 (by omega), fun a => f.2.2 (by omega)⟩

theorem starts_cons {h ts} : startsExpr (h :: ts) = startsExpr [h] := by
  unfold startsExpr; split <;> simp_all

/-- How written things begin. -/
def Begins : Cat → List T → Prop
  | .e l _, t => ∃ h u, t = h :: u ∧ first l h
  | .strs _, t => ∃ s u, t = .string s :: u
  | .args _ _, t => ∃ h u, t = h :: u ∧ first 0 h
  | .pairs _, t => ∃ h u, t = h :: u ∧ first 0 h
  | _, _ => True

theorem begins {c t} (w : Writes c t) : Begins c t := by
  induction w
  case lift ih => obtain ⟨h, u, rfl, f⟩ := ih; exact ⟨h, u, rfl, f.mono (by omega)⟩
  case strs ih => obtain ⟨s, u, rfl⟩ := ih; exact ⟨_, _, rfl, rfl, by simp, by simp⟩
  case str => exact ⟨_, _, rfl⟩
  case strCat ih => obtain ⟨s, u, rfl⟩ := ih; exact ⟨_, _, rfl⟩
  case not => exact ⟨_, _, rfl, rfl, by simp, by simp⟩
  case lnot => exact ⟨_, _, rfl, rfl, by simp, by simp⟩
  case neg => exact ⟨_, _, rfl, rfl, by simp, by simp⟩
  case pos => exact ⟨_, _, rfl, rfl, by simp, by simp⟩
  case pow ih _ => obtain ⟨h, u, rfl, f⟩ := ih; exact ⟨h, _, rfl, f.mono (by omega)⟩
  case cmp ih _ _ => obtain ⟨h, u, rfl, f⟩ := ih; exact ⟨h, _, rfl, f.mono (by omega)⟩
  case posC ih _ => obtain ⟨h, u, rfl, f⟩ := ih; exact ⟨h, _, rfl, f⟩
  case nam1 ih _ => obtain ⟨h, u, rfl, f⟩ := ih; exact ⟨h, _, rfl, f⟩
  case namC ih _ _ => obtain ⟨h, u, rfl, f⟩ := ih; exact ⟨h, _, rfl, f⟩
  case pair ih _ => obtain ⟨h, u, rfl, f⟩ := ih; exact ⟨h, _, rfl, f⟩
  case pairC ih _ _ => obtain ⟨h, u, rfl, f⟩ := ih; exact ⟨h, _, rfl, f⟩
  case pos1 ih => exact ih
  case and ih _ => obtain ⟨h, u, rfl, f⟩ := ih; exact ⟨h, _, rfl, f⟩
  case or ih _ => obtain ⟨h, u, rfl, f⟩ := ih; exact ⟨h, _, rfl, f⟩
  case bin ih _ => obtain ⟨h, u, rfl, f⟩ := ih; exact ⟨h, _, rfl, f⟩
  case index ih _ => obtain ⟨h, u, rfl, f⟩ := ih; exact ⟨h, _, rfl, f⟩
  case slice ih _ _ => obtain ⟨h, u, rfl, f⟩ := ih; exact ⟨h, _, rfl, f⟩
  case stride ih _ _ _ => obtain ⟨h, u, rfl, f⟩ := ih; exact ⟨h, _, rfl, f⟩
  case call ih _ => obtain ⟨h, u, rfl, f⟩ := ih; exact ⟨h, _, rfl, f⟩
  all_goals first | exact trivial | exact ⟨_, _, rfl, rfl, by simp, by simp⟩

theorem starts_of {l x t} (w : Writes (.e l x) t) (rest) : startsExpr (t ++ rest) = true := by
  obtain ⟨h, u, rfl, f⟩ := begins w
  rw [List.cons_append, starts_cons]; exact f.1

/-- `rest` is a closing bracket and more. -/
def End (rest : List T) : Prop := ∃ h r, rest = h :: r ∧ (h = .cp ∨ h = .cs ∨ h = .cc)

theorem End.stops {rest} (h : End rest) (l) : Stops l rest := by
  obtain ⟨t, r, rfl, h⟩ := h
  rcases h with rfl | rfl | rfl <;> exact Stops.of_none l rfl

theorem End.starts {rest} (h : End rest) : startsExpr rest = false := by
  obtain ⟨t, r, rfl, h⟩ := h
  rcases h with rfl | rfl | rfl <;> rfl

theorem End.not_comma {rest} (h : End rest) : ∀ r, rest ≠ .comma :: r := by
  obtain ⟨t, r, rfl, h⟩ := h
  intro r' e; cases e
  rcases h with h | h | h <;> cases h

/-- What the parser makes of a written thing. -/
def Reads : Cat → List T → Prop
  | .e l x, t => l ≤ 13 ∧ ∀ rest r, Stops l rest → (Ev fun k => tail k l x rest = some r) →
      Ev fun k => lvl k l (t ++ rest) = some r
  | .strs x, t => ∃ s u, t = .string s :: u ∧ ∀ rest, stringsP (.str s) (u ++ rest) = stringsP x rest
  | .chain c, t => ∀ rest, Stops 3 rest → Ev fun k => chain k (t ++ rest) = some (c, rest)
  | .opt o, t => ∀ h rest, h = .colon ∨ h = .cs → Ev fun k => optExpr k (t ++ h :: rest) = some (o, h :: rest)
  | .args es ns, t => ∀ n nm c rest, End rest → c = [] ∨ c = [.comma] → n + es.length ≤ 256 → (nm = true → es = .nil) →
      Ev fun k => actuals k n nm (t ++ c ++ rest) = some (es, ns, rest)
  | .acts es ns, t => ∀ rest, End rest → Ev fun k => optActuals k (t ++ rest) = some (es, ns, rest)
  | .pairs es, t => ∀ c rest, End rest → c = [] ∨ c = [.comma] → Ev fun k => ents k (t ++ c ++ rest) = some (es, rest)
  | .ents es, t => ∀ rest, End rest → Ev fun k => optEnts k (t ++ rest) = some (es, rest)

/-- An expression followed by something that does not extend it. -/
theorem Reads.alone {l x t} (h : Reads (.e l x) t) {rest} (s : Stops l rest) (n : NotAt l rest) :
    Ev fun k => lvl k l (t ++ rest) = some (x, rest) :=
  h.2 rest (x, rest) s (Ev.of fun k => tail_stop k l x rest n)

theorem notAt_none {h r} (l) (e : contLevel h = none) : NotAt l (h :: r) := by
  intro a b e'; cases e'; rw [e]; exact fun h => nomatch h

theorem Reads.before {l x t} (h : Reads (.e l x) t) {a rest} (e : contLevel a = none) :
    Ev fun k => lvl k l (t ++ a :: rest) = some (x, a :: rest) :=
  h.alone (.of_none l e) (notAt_none l e)

theorem stringsP_stop (x rest) (h : NotAt 13 rest) : stringsP x rest = (x, rest) := by
  unfold stringsP; split
  · exact absurd rfl (h _ _ rfl)
  · rfl

theorem Stops.strict {l rest} (h : Stops l rest) (hl : l = 3 ∨ l = 11 ∨ l = 13) : NotAt l rest := by
  intro a r e hm
  have := h a r e _ hm
  omega

/-- A new tree at level 13. -/
theorem reads_prim {x t} (h : ∀ rest, NotAt 13 rest → Ev fun k => prim k (t ++ rest) = some (x, rest)) : Reads (.e 13 x) t := by
  refine ⟨by decide, fun rest r s e => ?_⟩
  have n := s.strict (by omega)
  obtain rfl := Ev.det e (Ev.of fun k => tail_stop k 13 x rest n)
  exact (h rest n).step fun k hk => by rw [Snek.Parse.lvl]; exact hk

/-- A new tree at a level without left recursion. -/
theorem reads_level {l x t} (hl : l ≤ 13) (hs : l = 3 ∨ l = 11 ∨ l = 2 ∨ l = 10)
    (h : ∀ rest, Stops l rest → NotAt l rest → Ev fun k => lvl k l (t ++ rest) = some (x, rest)) : Reads (.e l x) t := by
  refine ⟨hl, fun rest r s e => ?_⟩
  have n : NotAt l rest := by
    rcases hs with h | h | h | h
    · exact s.strict (by omega)
    · exact s.strict (by omega)
    all_goals
      subst h
      intro a r e hm
      unfold contLevel at hm
      split at hm <;> first | (cases hm; done) | (rename_i o; cases o <;> cases hm)
  obtain rfl := Ev.det e (Ev.of fun k => tail_stop k l x rest n)
  exact h rest s n

theorem notAt_2_10 {l rest} (h : l = 2 ∨ l = 10) : NotAt l rest := by
  intro a r e hm
  unfold contLevel at hm
  split at hm <;> first | (cases hm; done) | (rename_i o; cases o <;> simp [level] at hm <;> omega) | (simp at hm; omega)

theorem reads_lift {l x t} (hl : l < 13) (w : Writes (.e (l+1) x) t) (ih : Reads (.e (l+1) x) t) : Reads (.e l x) t := by
  refine ⟨by omega, fun rest r s e => ?_⟩
  have A := ih.alone s.up s.notAt
  obtain ⟨h, u, rfl, f⟩ := begins w
  by_cases h2 : l = 2
  · obtain rfl := Ev.det e (Ev.of fun k => tail_stop k l x rest (notAt_2_10 (.inl h2)))
    subst h2
    refine A.step fun k hk => ?_
    rw [lvl_2]; exact hk
    intro u e; cases e; exact f.2.1 (by decide) rfl
  by_cases h10 : l = 10
  · obtain rfl := Ev.det e (Ev.of fun k => tail_stop k l x rest (notAt_2_10 (.inr h10)))
    subst h10
    refine A.step fun k hk => ?_
    rw [lvl_10]; exact hk
    all_goals intro u e; cases e
    · exact (f.2.2 (by decide)).1 rfl
    · exact (f.2.2 (by decide)).2.1 rfl
    · exact (f.2.2 (by decide)).2.2 rfl
  · refine (A.and e).step fun k ⟨h1, h3⟩ => ?_
    rw [lvl_gen k l _ h2 h10 (by omega), h1]
    exact h3

theorem relTok_of {r s} (h : RelTok r s) : relTok s = some r := by cases h <;> rfl

theorem contLevel_rel {r s} (h : RelTok r s) : contLevel s = some 3 := by cases h <;> rfl

theorem stops_at {h l rest} (e : contLevel h = some l) (m) (hl : l ≤ m) (hm : m = 3 ∨ m = 11 ∨ m = 13 → l < m) :
    Stops m (h :: rest) := by
  intro a r e' n hn
  cases e'; rw [e] at hn; cases hn
  exact ⟨hl, hm⟩

theorem notAt_at {h l rest} (e : contLevel h = some l) (m) (hl : l ≠ m) : NotAt m (h :: rest) := by
  intro a r e' hn
  cases e'; rw [e] at hn; cases hn; exact hl rfl

theorem level_bounds (o : BinOp) (h : o ≠ .pow) : 4 ≤ level o ∧ level o ≤ 9 := by
  cases o <;> first | exact absurd rfl h | decide

theorem End.cons_cp (r) : End (.cp :: r) := ⟨_, _, rfl, .inl rfl⟩
theorem End.cons_cs (r) : End (.cs :: r) := ⟨_, _, rfl, .inr (.inl rfl)⟩
theorem End.cons_cc (r) : End (.cc :: r) := ⟨_, _, rfl, .inr (.inr rfl)⟩

theorem args_starts {es ns t} (w : Writes (.args es ns) t) (rest) : startsExpr (t ++ rest) = true := by
  obtain ⟨h, u, rfl, f⟩ := begins w
  rw [List.cons_append, starts_cons]; exact f.1

theorem pairs_starts {es t} (w : Writes (.pairs es) t) (rest) : startsExpr (t ++ rest) = true := by
  obtain ⟨h, u, rfl, f⟩ := begins w
  rw [List.cons_append, starts_cons]; exact f.1

/-- After the last actual. -/
theorem actualsP_end {n nm c rest} (he : End rest) (hc : c = [] ∨ c = [.comma]) :
    Ev fun k => actualsP k n nm (c ++ rest) = some (.nil, .nil, rest) := by
  refine Ev.of fun k => ?_
  rcases hc with rfl | rfl
  · obtain ⟨h, r, rfl, h'⟩ := he
    rcases h' with rfl | rfl | rfl <;> rw [List.nil_append, Snek.Parse.actualsP] <;> simp
  · rw [List.singleton_append, Snek.Parse.actualsP, he.starts]; rfl

theorem actuals_pos (k n nm ts x ts') (h : lvl k 0 ts = some (x, ts')) (ha : ∀ a r, ts' ≠ .assign a :: r) (hn : nm = false)
    (h256 : n < 256) : actuals (k+1) n nm ts =
      (actualsP k (n+1) false ts' >>= fun p => some (.cons x p.1, p.2.1, p.2.2)) := by
  rw [Snek.Parse.actuals.eq_def]
  simp only [h, Option.bind_eq_bind, Option.bind_some]
  split
  · rename_i e; simp [hn] at e; omega
  · rfl

theorem actuals_nam (k n nm ts x a ts') (h : lvl k 0 ts = some (.name x, .assign a :: ts')) : actuals (k+1) n nm ts =
      (lvl k 0 ts' >>= fun p => actualsP k n true p.2 >>= fun q => some (q.1, .cons x p.1 q.2.1, q.2.2)) := by
  rw [Snek.Parse.actuals.eq_def]
  simp only [h, Option.bind_eq_bind, Option.bind_some]

theorem comma_starts {k n nm ts} (h : startsExpr ts = true) : actualsP (k+1) n nm (.comma :: ts) = actuals k n nm ts := by
  rw [Snek.Parse.actualsP, if_pos h]

theorem comma_or_end {c rest : List T} (he : End rest) (hc : c = [] ∨ c = [.comma]) :
    ∃ h r, c ++ rest = h :: r ∧ contLevel h = none ∧ (∀ a, h ≠ .assign a) ∧ h ≠ .colon := by
  rcases hc with rfl | rfl
  · obtain ⟨h, r, rfl, h'⟩ := he
    exact ⟨h, r, rfl, by rcases h' with rfl | rfl | rfl <;> simp [contLevel]⟩
  · exact ⟨_, _, rfl, rfl, by simp, by simp⟩

theorem prim_paren (k ts) {x r} (h : startsExpr ts = true) (hk : lvl k 0 ts = some (x, .cp :: r)) :
    prim (k+1) (.op :: ts) = some (x, r) := by
  rw [Snek.Parse.prim.eq_def]
  simp only [h, hk, if_true, Option.bind_eq_bind, Option.bind_some]

theorem prim_tuple (k ts) {x ts' es r} (h : startsExpr ts = true) (hk : lvl k 0 ts = some (x, .comma :: ts'))
    (ha : optActuals k ts' = some (es, .nil, .cp :: r)) (hl : es.length < 256) :
    prim (k+1) (.op :: ts) = some (.build .tuple (.cons x es), r) := by
  rw [Snek.Parse.prim.eq_def]
  simp only [h, hk, ha, if_true, Option.bind_eq_bind, Option.bind_some]
  split
  · rename_i h; simp only [Named.length] at h; omega
  · rfl

theorem prim_list (k ts) {es r} (ha : optActuals k ts = some (es, .nil, .cs :: r)) (hl : es.length < 256) :
    prim (k+1) (.os :: ts) = some (.build .list es, r) := by
  rw [Snek.Parse.prim.eq_def]
  simp only [ha, Option.bind_eq_bind, Option.bind_some]
  split
  · rename_i h; simp only [Named.length] at h; omega
  · rfl

theorem arrayIndex_of_opt (k a ts) {s z} (h : optExpr (k+1) ts = some (s, .colon :: z)) :
    arrayIndex (k+1) a ts = slice k a s z := by
  rw [Snek.Parse.optExpr.eq_def] at h
  rw [Snek.Parse.arrayIndex.eq_def]
  dsimp only at h ⊢
  split at h
  · rename_i hs
    obtain ⟨⟨e, u⟩, h1, h2⟩ := bind_some h
    cases h2
    rw [if_pos hs, h1]; rfl
  · rename_i hs
    cases h
    rw [if_neg hs]

theorem slice_two (k a s ts) {e r} (h : optExpr k ts = some (e, .cs :: r)) :
    slice (k+1) a s ts = some (.slice a s e .none, .cs :: r) := by
  rw [Snek.Parse.slice.eq_def]
  simp only [h, Option.bind_eq_bind, Option.bind_some]

theorem slice_three (k a s ts) {e z d r} (h : optExpr k ts = some (e, .colon :: z)) (h' : optExpr k z = some (d, r)) :
    slice (k+1) a s ts = some (.slice a s e d, r) := by
  rw [Snek.Parse.slice.eq_def]
  simp only [h, h', Option.bind_eq_bind, Option.bind_some]

theorem ev_succ {p : Nat → Prop} (h : Ev p) : Ev fun k => p (k+1) := by
  obtain ⟨k0, h⟩ := h
  exact ⟨k0, fun k hk => h (k+1) (by omega)⟩

/-- The part in brackets of a slice. -/
theorem read_slice {a s u z r rest x} (hu : Reads (.opt s) u) (hz : Ev fun k => slice k a s z = some (x, .cs :: rest))
    (e : Ev fun k => tail k 12 x rest = some r) : Ev fun k => tail k 12 a (.os :: (u ++ .colon :: z)) = some r := by
  have A : Ev fun k => arrayIndex k a (u ++ .colon :: z) = some (x, .cs :: rest) :=
    ((ev_succ (hu .colon z (.inl rfl))).and hz).step fun k ⟨h1, h2⟩ => by rw [arrayIndex_of_opt k a _ h1, h2]
  refine (A.and e).step fun k ⟨h1, h2⟩ => ?_
  rw [Snek.Parse.tail]
  simp only [h1, Option.bind_eq_bind, Option.bind_some]
  exact h2

theorem chain_stops {c v rest} (h : Writes (.chain c) v) (s : Stops 3 rest) : Stops 4 (v ++ rest) ∧ NotAt 4 (v ++ rest) := by
  cases h with
  | chain0 => exact ⟨s.up, s.notAt⟩
  | chain1 hr _ _ => exact ⟨stops_at (contLevel_rel hr) _ (by decide) (by decide), notAt_at (contLevel_rel hr) _ (by decide)⟩

theorem ents_one (k ts) {a z b r} (h : lvl k 0 ts = some (a, .colon :: z)) (h' : lvl k 0 z = some (b, r))
    (hr : ∀ u, r ≠ .comma :: u) : ents (k+1) ts = some (.cons a (.cons b .nil), r) := by
  rw [Snek.Parse.ents.eq_def]
  simp only [h, h', Option.bind_eq_bind, Option.bind_some]

theorem ents_more (k ts) {a z b r es r'} (h : lvl k 0 ts = some (a, .colon :: z)) (h' : lvl k 0 z = some (b, .comma :: r))
    (hr : optEnts k r = some (es, r')) : ents (k+1) ts = some (.cons a (.cons b es), r') := by
  rw [Snek.Parse.ents.eq_def]
  simp only [h, h', hr, Option.bind_eq_bind, Option.bind_some]

theorem reads {c t} (w : Writes c t) : Reads c t := by
  induction w
  case lift hl w ih => exact reads_lift hl w ih
  case name x => exact reads_prim fun rest n => Ev.of fun k => by simp [Snek.Parse.prim]
  case num x => exact reads_prim fun rest n => Ev.of fun k => by simp [Snek.Parse.prim]
  case strs x t w ih =>
    obtain ⟨s, u, rfl, h⟩ := ih
    refine reads_prim fun rest n => Ev.of fun k => ?_
    rw [List.cons_append, Snek.Parse.prim, h rest, stringsP_stop _ _ n]
  case str s => exact ⟨s, [], rfl, fun rest => rfl⟩
  case strCat x t s w ih =>
    obtain ⟨s', u, rfl, h⟩ := ih
    refine ⟨s', u ++ [.string s], rfl, fun rest => ?_⟩
    rw [List.append_assoc, h]; rfl
  case paren x t w ih =>
    refine reads_prim fun rest n => (ih.before (a := .cp) rfl (rest := rest)).step fun k hk => ?_
    have : (.op :: t ++ [.cp]) ++ rest = .op :: (t ++ .cp :: rest) := by simp
    rw [this, prim_paren k _ (starts_of w _) hk]
  case tuple0 => exact reads_prim fun rest n => Ev.of fun k => by simp [Snek.Parse.prim, startsExpr]
  case tuple x t es u w w' hlen ih ih' =>
    refine reads_prim fun rest n => ((ih.before (a := .comma) rfl (rest := u ++ .cp :: rest)).and (ih' _ (.cons_cp rest))).step
      fun k ⟨h1, h2⟩ => ?_
    have : (.op :: t ++ .comma :: u ++ [.cp]) ++ rest = .op :: (t ++ .comma :: (u ++ .cp :: rest)) := by simp
    rw [this, prim_tuple k _ (starts_of w _) h1 h2 hlen]
  case list es u w hlen ih =>
    refine reads_prim fun rest n => (ih _ (.cons_cs rest)).step fun k h1 => ?_
    have : (.os :: u ++ [.cs]) ++ rest = .os :: (u ++ .cs :: rest) := by simp
    rw [this, prim_list k _ h1 hlen]
  case dict es u w ih =>
    refine reads_prim fun rest n => (ih _ (.cons_cc rest)).step fun k h1 => ?_
    have : (.oc :: u ++ [.cc]) ++ rest = .oc :: (u ++ .cc :: rest) := by simp
    rw [this, Snek.Parse.prim]
    simp only [h1, Option.bind_eq_bind, Option.bind_some]
  case index a t i u w w' ih ih' =>
    refine ⟨by decide, fun rest r s e => ?_⟩
    have : (t ++ .os :: u ++ [.cs]) ++ rest = t ++ .os :: (u ++ .cs :: rest) := by simp
    rw [this]
    refine ih.2 _ _ (stops_at rfl 12 (by decide) (by decide)) ?_
    have A : Ev fun k => arrayIndex k a (u ++ .cs :: rest) = some (.index a i, .cs :: rest) :=
      (ih'.before (a := .cs) rfl (rest := rest)).step fun k hk => by
        rw [Snek.Parse.arrayIndex.eq_def]
        simp only [starts_of w' _, if_true, hk, Option.bind_eq_bind, Option.bind_some]
    refine (A.and e).step fun k ⟨h1, h2⟩ => ?_
    rw [Snek.Parse.tail]
    simp only [h1, Option.bind_eq_bind, Option.bind_some]
    exact h2
  case slice a t s u p v w w' w'' ih ih' ih'' =>
    refine ⟨by decide, fun rest r st e => ?_⟩
    have : (t ++ .os :: u ++ .colon :: v ++ [.cs]) ++ rest = t ++ .os :: (u ++ .colon :: (v ++ .cs :: rest)) := by simp
    rw [this]
    refine ih.2 _ _ (stops_at rfl 12 (by decide) (by decide)) (read_slice ih' ?_ e)
    exact (ih'' .cs rest (.inr rfl)).step fun k hk => slice_two k a s _ hk
  case stride a t s u p v q w w1 w2 w3 w4 ih ih' ih'' ih3 =>
    refine ⟨by decide, fun rest r st e => ?_⟩
    have : (t ++ .os :: u ++ .colon :: v ++ .colon :: w ++ [.cs]) ++ rest
        = t ++ .os :: (u ++ .colon :: (v ++ .colon :: (w ++ .cs :: rest))) := by simp
    rw [this]
    refine ih.2 _ _ (stops_at rfl 12 (by decide) (by decide)) (read_slice ih' ?_ e)
    exact ((ih'' .colon _ (.inl rfl)).and (ih3 .cs rest (.inr rfl))).step fun k ⟨h1, h2⟩ => slice_three k a s _ h1 h2
  case call f t es ns u w w' ih ih' =>
    refine ⟨by decide, fun rest r s e => ?_⟩
    have : (t ++ .op :: u ++ [.cp]) ++ rest = t ++ .op :: (u ++ .cp :: rest) := by simp
    rw [this]
    refine ih.2 _ _ (stops_at rfl 12 (by decide) (by decide)) ?_
    refine ((ih' _ (.cons_cp rest)).and e).step fun k ⟨h1, h2⟩ => ?_
    rw [Snek.Parse.tail]
    simp only [h1, Option.bind_eq_bind, Option.bind_some]
    exact h2
  case pow a t b u w w' ih ih' =>
    refine reads_level (by decide) (by decide) fun rest s n => ?_
    have : (t ++ .bin .pow :: u) ++ rest = t ++ .bin .pow :: (u ++ rest) := by simp
    rw [this]
    have A := ih.alone (rest := .bin .pow :: (u ++ rest)) (stops_at (l := 11) rfl 12 (by decide) (by decide))
      (notAt_at (l := 11) rfl 12 (by decide))
    have B := (ih'.alone s n).step (q := fun k => tail k 11 a (.bin .pow :: (u ++ rest)) = some (.binary .pow a b, rest))
      fun k hk => by rw [tail_pow, hk]; rfl
    refine (A.and B).step fun k ⟨h1, h2⟩ => ?_
    rw [lvl_gen _ _ _ (by decide) (by decide) (by decide), h1]
    exact h2
  case lnot x t w ih =>
    refine reads_level (by decide) (by decide) fun rest s n => (ih.alone s n).step fun k hk => ?_
    rw [List.cons_append, lvl_lnot, hk]; rfl
  case neg x t w ih =>
    refine reads_level (by decide) (by decide) fun rest s n => (ih.alone s n).step fun k hk => ?_
    rw [List.cons_append, lvl_minus, hk]; rfl
  case pos x t w ih =>
    refine reads_level (by decide) (by decide) fun rest s n => (ih.alone s n).step fun k hk => ?_
    rw [List.cons_append, lvl_plus, hk]
  case not x t w ih =>
    refine reads_level (by decide) (by decide) fun rest s n => (ih.alone s n).step fun k hk => ?_
    rw [List.cons_append, lvl_not, hk]; rfl
  case bin o a t b u hp w w' ih ih' =>
    have hb := level_bounds o hp
    refine ⟨by omega, fun rest r s e => ?_⟩
    have : (t ++ .bin o :: u) ++ rest = t ++ .bin o :: (u ++ rest) := by simp
    rw [this]
    refine ih.2 _ _ (stops_at rfl _ (Nat.le_refl _) (by omega)) ?_
    refine ((ih'.alone s.up s.notAt).and e).step fun k ⟨h1, h2⟩ => ?_
    rw [tail_bin _ _ _ _ hp, h1]
    exact h2
  case and a t b u w w' ih ih' =>
    refine ⟨by omega, fun rest r s e => ?_⟩
    have : (t ++ .kw .and :: u) ++ rest = t ++ .kw .and :: (u ++ rest) := by simp
    rw [this]
    refine ih.2 _ _ (stops_at rfl _ (Nat.le_refl _) (by omega)) ?_
    refine ((ih'.alone s.up s.notAt).and e).step fun k ⟨h1, h2⟩ => ?_
    rw [tail_and, h1]
    exact h2
  case or a t b u w w' ih ih' =>
    refine ⟨by omega, fun rest r s e => ?_⟩
    have : (t ++ .kw .or :: u) ++ rest = t ++ .kw .or :: (u ++ rest) := by simp
    rw [this]
    refine ih.2 _ _ (stops_at rfl _ (Nat.le_refl _) (by omega)) ?_
    refine ((ih'.alone s.up s.notAt).and e).step fun k ⟨h1, h2⟩ => ?_
    rw [tail_or, h1]
    exact h2
  case cmp a t r s b u c v w hr w' w'' ih ih' ih'' =>
    refine reads_level (by decide) (by decide) fun rest st n => ?_
    have : (t ++ s :: u ++ v) ++ rest = t ++ s :: (u ++ (v ++ rest)) := by simp
    rw [this]
    have A := ih.alone (rest := s :: (u ++ (v ++ rest))) (stops_at (contLevel_rel hr) 4 (by decide) (by decide))
      (notAt_at (contLevel_rel hr) 4 (by decide))
    have cs := chain_stops w'' st
    have B := ((ih'.alone cs.1 cs.2).and (ih'' rest st)).step
      (q := fun k => tail k 3 a (s :: (u ++ (v ++ rest))) = some (.cmp a r b c, rest))
      fun k ⟨h1, h2⟩ => by
        rw [tail_rel _ _ _ _ _ (relTok_of hr), h1]
        simp only [h2, Option.bind_eq_bind, Option.bind_some]
    refine (A.and B).step fun k ⟨h1, h2⟩ => ?_
    rw [lvl_gen _ _ _ (by decide) (by decide) (by decide), h1]
    exact h2
  case chain0 => exact fun rest s => Ev.of fun k => chain_stop k rest (s.strict (.inl rfl))
  case chain1 r s b u c v hr w w' ih ih' =>
    intro rest st
    have : (s :: u ++ v) ++ rest = s :: (u ++ (v ++ rest)) := by simp
    rw [this]
    have cs := chain_stops w' st
    refine ((ih.alone cs.1 cs.2).and (ih' rest st)).step fun k ⟨h1, h2⟩ => ?_
    rw [chain_rel _ _ _ _ (relTok_of hr), h1]
    simp only [h2, Option.bind_eq_bind, Option.bind_some]
  case opt0 =>
    intro h rest hh
    refine Ev.of fun k => ?_
    rw [Snek.Parse.optExpr]
    rcases hh with rfl | rfl <;> rfl
  case opt1 x t w ih =>
    intro h rest hh
    refine (ih.before (a := h) (by rcases hh with rfl | rfl <;> rfl) (rest := rest)).step fun k hk => ?_
    rw [Snek.Parse.optExpr, if_pos (starts_of w _), hk]; rfl
  case pos1 x t w ih =>
    intro n nm c rest he hc hn hnm
    obtain ⟨h, r, e, e0, ea, -⟩ := comma_or_end he hc
    have A := ih.before (a := h) e0 (rest := r)
    rw [← e] at A
    refine (A.and (actualsP_end (n := n+1) (nm := false) he hc)).step fun k ⟨h1, h2⟩ => ?_
    rw [List.append_assoc, actuals_pos k n nm _ _ _ h1 (by rw [e]; intro a r h; cases h; exact ea _ rfl)
      (by cases nm with | false => rfl | true => cases hnm rfl) (by simp only [Exprs.length] at hn; omega), h2]; rfl
  case posC x t es ns u w w' ih ih' =>
    intro n nm c rest he hc hn hnm
    have hnm' : nm = false := by cases nm with | false => rfl | true => cases hnm rfl
    subst hnm'
    simp only [Exprs.length] at hn
    have B := (ih' (n+1) false c rest he hc (by omega) (by simp)).step
      (q := fun k => actualsP k (n+1) false (.comma :: (u ++ c ++ rest)) = some (es, ns, rest)) fun k hk => by
        rw [comma_starts (by rw [List.append_assoc]; exact args_starts w' _), hk]
    refine ((ih.before (a := .comma) rfl (rest := u ++ c ++ rest)).and B).step fun k ⟨h1, h2⟩ => ?_
    have : t ++ .comma :: u ++ c ++ rest = t ++ .comma :: (u ++ c ++ rest) := by simp
    rw [this, actuals_pos k n false _ _ _ h1 (by simp) rfl (by omega), h2]; rfl
  case nam1 x t v u a w w' ih ih' =>
    intro n nm c rest he hc hn hnm
    obtain ⟨h, r, e, e0, ea, -⟩ := comma_or_end he hc
    have A := ih'.before (a := h) e0 (rest := r)
    rw [← e] at A
    refine ((ih.before (a := .assign a) rfl (rest := u ++ (c ++ rest))).and
      (A.and (actualsP_end (n := n) (nm := true) he hc))).step fun k ⟨h0, h1, h2⟩ => ?_
    have : t ++ .assign a :: u ++ c ++ rest = t ++ .assign a :: (u ++ (c ++ rest)) := by simp
    rw [this, actuals_nam k n nm _ _ _ _ h0, h1]
    simp only [h2, Option.bind_eq_bind, Option.bind_some]
  case namC x t v u ns w a w0 w1 w2 ih ih' ih'' =>
    intro n nm c rest he hc hn hnm
    have B := (ih'' n true c rest he hc hn (by simp)).step
      (q := fun k => actualsP k n true (.comma :: (w ++ c ++ rest)) = some (.nil, ns, rest)) fun k hk => by
        rw [comma_starts (by rw [List.append_assoc]; exact args_starts w2 _), hk]
    refine ((ih.before (a := .assign a) rfl (rest := u ++ .comma :: (w ++ c ++ rest))).and
      ((ih'.before (a := .comma) rfl (rest := w ++ c ++ rest)).and B)).step fun k ⟨h0, h1, h2⟩ => ?_
    have : t ++ .assign a :: u ++ .comma :: w ++ c ++ rest = t ++ .assign a :: (u ++ .comma :: (w ++ c ++ rest)) := by simp
    rw [this, actuals_nam k n nm _ _ _ _ h0, h1]
    simp only [h2, Option.bind_eq_bind, Option.bind_some]
  case acts0 =>
    intro rest he
    refine Ev.of fun k => ?_
    rw [List.nil_append, Snek.Parse.optActuals, he.starts]; rfl
  case acts1 es ns t w hlen ih =>
    intro rest he
    refine (ih 0 false [] rest he (.inl rfl) (by omega) (by simp)).step fun k hk => ?_
    rw [Snek.Parse.optActuals, if_pos (args_starts w _)]; simpa using hk
  case actsC es ns t w hlen ih =>
    intro rest he
    refine (ih 0 false [.comma] rest he (.inr rfl) (by omega) (by simp)).step fun k hk => ?_
    rw [Snek.Parse.optActuals, if_pos (by rw [List.append_assoc]; exact args_starts w _)]; exact hk
  case pair x t v u w w' ih ih' =>
    intro c rest he hc
    have : t ++ .colon :: u ++ c ++ rest = t ++ .colon :: (u ++ (c ++ rest)) := by simp
    rw [this]
    have A := ih.before (a := .colon) rfl (rest := u ++ (c ++ rest))
    rcases hc with rfl | rfl
    · obtain ⟨h, r, e, e0, -, -⟩ := comma_or_end he (c := []) (.inl rfl)
      have B := ih'.before (a := h) e0 (rest := r)
      rw [← e] at B
      exact (A.and B).step fun k ⟨h1, h2⟩ => ents_one k _ h1 h2 he.not_comma
    · have B := ih'.before (a := .comma) rfl (rest := rest)
      have C : Ev fun k => optEnts k rest = some (.nil, rest) := Ev.of fun k => by
        rw [Snek.Parse.optEnts, he.starts]; rfl
      exact (A.and (B.and C)).step fun k ⟨h1, h2, h3⟩ => ents_more k _ h1 h2 h3
  case pairC x t v u es w w0 w1 w2 ih ih' ih'' =>
    intro c rest he hc
    have : t ++ .colon :: u ++ .comma :: w ++ c ++ rest = t ++ .colon :: (u ++ .comma :: (w ++ c ++ rest)) := by simp
    rw [this]
    have A := ih.before (a := .colon) rfl (rest := u ++ .comma :: (w ++ c ++ rest))
    have B := ih'.before (a := .comma) rfl (rest := w ++ c ++ rest)
    have C : Ev fun k => optEnts k (w ++ c ++ rest) = some (es, rest) := (ih'' c rest he hc).step fun k hk => by
      rw [Snek.Parse.optEnts, if_pos (by rw [List.append_assoc]; exact pairs_starts w2 _), hk]
    exact (A.and (B.and C)).step fun k ⟨h1, h2, h3⟩ => ents_more k _ h1 h2 h3
  case ents0 =>
    intro rest he
    refine Ev.of fun k => ?_
    rw [List.nil_append, Snek.Parse.optEnts, he.starts]; rfl
  case ents1 es t w ih =>
    intro rest he
    refine (ih [] rest he (.inl rfl)).step fun k hk => ?_
    rw [Snek.Parse.optEnts, if_pos (pairs_starts w _)]; simpa using hk
  case entsC es t w ih =>
    intro rest he
    refine (ih [.comma] rest he (.inr rfl)).step fun k hk => ?_
    rw [Snek.Parse.optEnts, if_pos (by rw [List.append_assoc]; exact pairs_starts w _)]; exact hk

end Snek.Parse
