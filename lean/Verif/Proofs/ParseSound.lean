import Verif.Spec.Syntax
/-! Whatever the expression parser accepts is a written expression. -/
namespace Snek.Parse
open Snek.Vm Snek.Lang Spec.Syntax

theorem binTok_some {l t o} (h : binTok l t = some o) : t = .bin o ∧ level o = l ∧ o ≠ .pow := by
  unfold binTok at h
  split at h <;> first | (cases h; done) | (split at h <;> first | (cases h; done) | (cases h; subst_vars; exact ⟨rfl, rfl, by decide⟩))

theorem relTok_some {t r} (h : relTok t = some r) : RelTok r t := by
  unfold relTok at h
  split at h <;> cases h <;> constructor

theorem writes_strings {a : Expr} {t} (ts) (h : Writes (.strs a) t) :
    ∃ u, ts = u ++ (stringsP a ts).2 ∧ Writes (.strs (stringsP a ts).1) (t ++ u) := by
  induction ts generalizing a t with
  | nil => exact ⟨[], rfl, by simpa [stringsP] using h⟩
  | cons x ts ih =>
    cases x <;> try exact ⟨[], rfl, by simpa [stringsP] using h⟩
    case string s =>
      obtain ⟨u, e, w⟩ := ih (.strCat s h)
      refine ⟨.string s :: u, ?_, ?_⟩
      · show _ = _ ++ (stringsP _ ts).2; rw [List.cons_append, ← e]
      · show Writes (.strs (stringsP _ ts).1) _; simpa using w

/-- Level an operand before `tail` must have. -/
def below (l : Nat) : Nat := if l = 3 ∨ l = 11 then l + 1 else l

structure Snd (k : Nat) : Prop where
  lvl : ∀ l ts x r, l ≤ 13 → lvl k l ts = some (x, r) → ∃ t, ts = t ++ r ∧ Writes (.e l x) t
  tail : ∀ l a ts x r, l ≤ 13 → tail k l a ts = some (x, r) → ∀ t0, Writes (.e (below l) a) t0 →
    ∃ t, ts = t ++ r ∧ Writes (.e l x) (t0 ++ t)
  chain : ∀ ts c r, chain k ts = some (c, r) → ∃ t, ts = t ++ r ∧ Writes (.chain c) t
  arrayIndex : ∀ a ts x r, arrayIndex k a ts = some (x, r) → ∀ t0, Writes (.e 12 a) t0 →
    ∃ t, ts = t ++ r ∧ Writes (.e 12 x) (t0 ++ .os :: t ++ [.cs])
  slice : ∀ a s ts x r, slice k a s ts = some (x, r) → ∀ t0 t1, Writes (.e 12 a) t0 → Writes (.opt s) t1 →
    ∃ t, ts = t ++ r ∧ Writes (.e 12 x) (t0 ++ .os :: t1 ++ .colon :: t ++ [.cs])
  optExpr : ∀ ts o r, optExpr k ts = some (o, r) → ∃ t, ts = t ++ r ∧ Writes (.opt o) t
  prim : ∀ ts x r, prim k ts = some (x, r) → ∃ t, ts = t ++ r ∧ Writes (.e 13 x) t
  optActuals : ∀ ts es ns r, optActuals k ts = some (es, ns, r) → ∃ t, ts = t ++ r ∧ Writes (.acts es ns) t
  actuals : ∀ n nm ts es ns r, actuals k n nm ts = some (es, ns, r) → (nm = true → es = .nil) ∧
    n + es.length ≤ max n 256 ∧ ∃ t c, ts = t ++ c ++ r ∧ (c = [] ∨ c = [.comma]) ∧ Writes (.args es ns) t
  actualsP : ∀ n nm ts es ns r, actualsP k n nm ts = some (es, ns, r) → (nm = true → es = .nil) ∧
    n + es.length ≤ max n 256 ∧
    ((es = .nil ∧ ns = .nil ∧ ∃ c, ts = c ++ r ∧ (c = [] ∨ c = [.comma])) ∨
     ∃ t c, ts = .comma :: t ++ c ++ r ∧ (c = [] ∨ c = [.comma]) ∧ Writes (.args es ns) t)
  optEnts : ∀ ts es r, optEnts k ts = some (es, r) → ∃ t, ts = t ++ r ∧ Writes (.ents es) t ∧
    (t = [] ∧ es = .nil ∨ ∃ u c, t = u ++ c ∧ (c = [] ∨ c = [.comma]) ∧ Writes (.pairs es) u)
  ents : ∀ ts es r, ents k ts = some (es, r) → ∃ t c, ts = t ++ c ++ r ∧ (c = [] ∨ c = [.comma]) ∧ Writes (.pairs es) t

theorem bind_some {α β} {o : Option α} {f : α → Option β} {b} (h : (o >>= f) = some b) : ∃ a, o = some a ∧ f a = some b := by
  cases o with
  | none => cases h
  | some a => exact ⟨a, rfl, h⟩

theorem writes_ents {es : Exprs} {t c : List T} (w : Writes (.pairs es) t) (hc : c = [] ∨ c = [.comma]) :
    Writes (.ents es) (t ++ c) := by
  rcases hc with rfl | rfl
  · simpa using Writes.ents1 w
  · exact .entsC w

theorem lvl_gen (k l ts) (h2 : l ≠ 2) (h10 : l ≠ 10) (h13 : l ≠ 13) :
    lvl (k+1) l ts = (lvl k (l+1) ts >>= fun p => tail k l p.1 p.2) := by
  rw [Snek.Parse.lvl.eq_def]
  split
  all_goals first | contradiction | (rename_i h _ _; cases h; rfl) | skip
  all_goals (rename_i h _ _ _ _ _ _ _; cases h; rfl)

theorem lvl_not (k ts) : lvl (k+1) 2 (.kw .not :: ts) = (lvl k 2 ts >>= fun p => some (.unary .not p.1, p.2)) := by
  rw [Snek.Parse.lvl]

theorem lvl_lnot (k ts) : lvl (k+1) 10 (.lnot :: ts) = (lvl k 10 ts >>= fun p => some (.unary .lnot p.1, p.2)) := by
  rw [Snek.Parse.lvl]

theorem lvl_minus (k ts) : lvl (k+1) 10 (.bin .minus :: ts) = (lvl k 10 ts >>= fun p => some (.unary .uminus p.1, p.2)) := by
  rw [Snek.Parse.lvl]

theorem lvl_plus (k ts) : lvl (k+1) 10 (.bin .plus :: ts) = lvl k 10 ts := by
  rw [Snek.Parse.lvl]

theorem lvl_2 (k ts) (h : ∀ u, ts ≠ .kw .not :: u) : lvl (k+1) 2 ts = lvl k 3 ts := by
  rw [Snek.Parse.lvl]
  exact h

theorem lvl_10 (k ts) (h : ∀ u, ts ≠ .lnot :: u) (h' : ∀ u, ts ≠ .bin .minus :: u) (h'' : ∀ u, ts ≠ .bin .plus :: u) :
    lvl (k+1) 10 ts = lvl k 11 ts := by
  rw [Snek.Parse.lvl]
  · exact h
  · exact h'
  · exact h''

theorem sound_lvl {k} (ih : Snd k) (l ts x r) (hl : l ≤ 13) (h : lvl (k+1) l ts = some (x, r)) :
    ∃ t, ts = t ++ r ∧ Writes (.e l x) t := by
  by_cases h13 : l = 13
  · subst h13
    have h : prim k ts = some (x, r) := by
      rw [Snek.Parse.lvl.eq_def] at h; exact h
    exact ih.prim _ _ _ h
  by_cases h2 : l = 2
  · subst h2
    by_cases hn : ∃ ts', ts = .kw .not :: ts'
    · obtain ⟨ts', rfl⟩ := hn
      obtain ⟨⟨e, u⟩, h1, h2⟩ := bind_some ((lvl_not k ts').symm.trans h)
      obtain ⟨t, rfl, w⟩ := ih.lvl _ _ _ _ (by decide) h1
      cases h2
      exact ⟨_ :: t, rfl, .not w⟩
    · rw [lvl_2 k ts (fun u e => hn ⟨u, e⟩)] at h
      obtain ⟨t, rfl, w⟩ := ih.lvl _ _ _ _ (by decide) h
      exact ⟨t, rfl, .lift (by decide) w⟩
  by_cases h10 : l = 10
  · subst h10
    by_cases hn : ∃ ts', ts = .lnot :: ts'
    · obtain ⟨ts', rfl⟩ := hn
      obtain ⟨⟨e, u⟩, h1, h2⟩ := bind_some ((lvl_lnot k ts').symm.trans h)
      obtain ⟨t, rfl, w⟩ := ih.lvl _ _ _ _ (by decide) h1
      cases h2
      exact ⟨_ :: t, rfl, .lnot w⟩
    by_cases hm : ∃ ts', ts = .bin .minus :: ts'
    · obtain ⟨ts', rfl⟩ := hm
      obtain ⟨⟨e, u⟩, h1, h2⟩ := bind_some ((lvl_minus k ts').symm.trans h)
      obtain ⟨t, rfl, w⟩ := ih.lvl _ _ _ _ (by decide) h1
      cases h2
      exact ⟨_ :: t, rfl, .neg w⟩
    by_cases hp : ∃ ts', ts = .bin .plus :: ts'
    · obtain ⟨ts', rfl⟩ := hp
      obtain ⟨t, rfl, w⟩ := ih.lvl _ _ _ _ (by decide) ((lvl_plus k ts').symm.trans h)
      exact ⟨_ :: t, rfl, .pos w⟩
    · rw [lvl_10 k ts (fun u e => hn ⟨u, e⟩) (fun u e => hm ⟨u, e⟩) (fun u e => hp ⟨u, e⟩)] at h
      obtain ⟨t, rfl, w⟩ := ih.lvl _ _ _ _ (by decide) h
      exact ⟨t, rfl, .lift (by decide) w⟩
  · rw [lvl_gen k l ts h2 h10 h13] at h
    obtain ⟨⟨a, u⟩, h1, h2⟩ := bind_some h
    obtain ⟨t, rfl, w⟩ := ih.lvl _ _ _ _ (by omega) h1
    have w' : Writes (.e (below l) a) t := by
      unfold below; split
      · exact w
      · exact .lift (by omega) w
    obtain ⟨t2, rfl, w2⟩ := ih.tail _ _ _ _ _ hl h2 _ w'
    exact ⟨t ++ t2, by simp, w2⟩

theorem below_up {l x t} (hl : l ≤ 13) (w : Writes (.e (below l) x) t) : Writes (.e l x) t := by
  unfold below at w; split at w
  · exact .lift (by omega) w
  · exact w

theorem sound_tail {k} (ih : Snd k) (l a ts x r) (hl : l ≤ 13) (h : tail (k+1) l a ts = some (x, r)) (t0)
    (w0 : Writes (.e (below l) a) t0) : ∃ t, ts = t ++ r ∧ Writes (.e l x) (t0 ++ t) := by
  have stop : ∀ {ts' : List T}, some (a, ts') = some (x, r) → ts' = ts → ∃ t, ts = t ++ r ∧ Writes (.e l x) (t0 ++ t) := by
    intro ts' e e'
    cases e; subst e'
    exact ⟨[], rfl, by simpa using below_up hl w0⟩
  rw [Snek.Parse.tail.eq_def] at h
  split at h
  · cases h
  · cases ‹k + 1 = _›
    obtain ⟨⟨b, u⟩, h1, h2⟩ := bind_some h
    obtain ⟨t, rfl, w⟩ := ih.lvl _ _ _ _ (by decide) h1
    obtain ⟨t', rfl, w'⟩ := ih.tail _ _ _ _ _ (by decide) h2 _ (Writes.or w0 w)
    exact ⟨_ :: t ++ t', by simp <;> rfl, by simpa using w'⟩
  · cases ‹k + 1 = _›
    obtain ⟨⟨b, u⟩, h1, h2⟩ := bind_some h
    obtain ⟨t, rfl, w⟩ := ih.lvl _ _ _ _ (by decide) h1
    obtain ⟨t', rfl, w'⟩ := ih.tail _ _ _ _ _ (by decide) h2 _ (Writes.and w0 w)
    exact ⟨_ :: t ++ t', by simp <;> rfl, by simpa using w'⟩
  · cases ‹k + 1 = _›
    split at h
    · rename_i hr
      obtain ⟨⟨b, u⟩, h1, h2⟩ := bind_some h
      obtain ⟨⟨c, u'⟩, h3, h4⟩ := bind_some h2
      obtain ⟨t, rfl, w⟩ := ih.lvl _ _ _ _ (by decide) h1
      obtain ⟨t', rfl, w'⟩ := ih.chain _ _ _ h3
      cases h4
      exact ⟨_ :: t ++ t', by simp <;> rfl, by simpa using Writes.cmp w0 (relTok_some hr) w w'⟩
    · exact stop h rfl
  · cases ‹k + 1 = _›
    obtain ⟨⟨b, u⟩, h1, h2⟩ := bind_some h
    obtain ⟨t, rfl, w⟩ := ih.lvl _ _ _ _ (by decide) h1
    cases h2
    exact ⟨_ :: t, rfl, Writes.pow w0 w⟩
  · cases ‹k + 1 = _›
    obtain ⟨⟨b, u⟩, h1, h2⟩ := bind_some h
    obtain ⟨t, rfl, w⟩ := ih.arrayIndex _ _ _ _ h1 _ w0
    dsimp only at h2
    split at h2
    · obtain ⟨t', rfl, w'⟩ := ih.tail _ _ _ _ _ (by decide) h2 _ w
      exact ⟨_ :: t ++ .cs :: t', by simp <;> rfl, by simpa using w'⟩
    · cases h2
  · cases ‹k + 1 = _›
    obtain ⟨⟨es, ns, u⟩, h1, h2⟩ := bind_some h
    obtain ⟨t, rfl, w⟩ := ih.optActuals _ _ _ _ h1
    dsimp only at h2
    split at h2
    · obtain ⟨t', rfl, w'⟩ := ih.tail _ _ _ _ _ (by decide) h2 _ (Writes.call w0 w)
      exact ⟨_ :: t ++ .cp :: t', by simp <;> rfl, by simpa using w'⟩
    · cases h2
  · cases ‹k + 1 = _›
    split at h
    · rename_i hb
      obtain ⟨rfl, hlo, hp⟩ := binTok_some hb
      obtain ⟨⟨b, u⟩, h1, h2⟩ := bind_some h
      subst hlo
      have hb : below (level ‹_›) = level ‹_› ∧ level ‹_› < 13 := by
        clear h h1 h2 w0 stop
        revert hp; cases ‹BinOp› <;> decide
      rw [hb.1] at w0
      obtain ⟨t, rfl, w⟩ := ih.lvl _ _ _ _ (by omega) h1
      obtain ⟨t', rfl, w'⟩ := ih.tail _ _ _ _ _ hl h2 _ (by rw [hb.1]; exact Writes.bin hp w0 w)
      exact ⟨_ :: t ++ t', by simp <;> rfl, by simpa using w'⟩
    · exact stop h rfl
  · exact stop h rfl

theorem sound_chain {k} (ih : Snd k) (ts c r) (h : chain (k+1) ts = some (c, r)) : ∃ t, ts = t ++ r ∧ Writes (.chain c) t := by
  rw [Snek.Parse.chain.eq_def] at h
  split at h
  · cases h
  · cases ‹k + 1 = _›
    split at h
    · rename_i hr
      obtain ⟨⟨b, u⟩, h1, h2⟩ := bind_some h
      obtain ⟨⟨c, u'⟩, h3, h4⟩ := bind_some h2
      obtain ⟨t, rfl, w⟩ := ih.lvl _ _ _ _ (by decide) h1
      obtain ⟨t', rfl, w'⟩ := ih.chain _ _ _ h3
      cases h4
      exact ⟨_ :: t ++ t', by simp <;> rfl, .chain1 (relTok_some hr) w w'⟩
    · cases h; exact ⟨[], rfl, .chain0⟩
  · cases h; exact ⟨[], rfl, .chain0⟩

theorem sound_optExpr {k} (ih : Snd k) (ts o r) (h : optExpr (k+1) ts = some (o, r)) : ∃ t, ts = t ++ r ∧ Writes (.opt o) t := by
  rw [Snek.Parse.optExpr.eq_def] at h
  dsimp only at h
  split at h
  · obtain ⟨⟨b, u⟩, h1, h2⟩ := bind_some h
    obtain ⟨t, rfl, w⟩ := ih.lvl _ _ _ _ (by decide) h1
    cases h2
    exact ⟨t, rfl, .opt1 w⟩
  · cases h; exact ⟨[], rfl, .opt0⟩

theorem sound_slice {k} (ih : Snd k) (a s ts x r) (h : slice (k+1) a s ts = some (x, r)) (t0 t1) (w0 : Writes (.e 12 a) t0)
    (w1 : Writes (.opt s) t1) : ∃ t, ts = t ++ r ∧ Writes (.e 12 x) (t0 ++ .os :: t1 ++ .colon :: t ++ [.cs]) := by
  rw [Snek.Parse.slice.eq_def] at h
  obtain ⟨⟨b, u⟩, h1, h2⟩ := bind_some h
  obtain ⟨t, rfl, w⟩ := ih.optExpr _ _ _ h1
  dsimp only at h2
  split at h2
  · obtain ⟨⟨d, u⟩, h3, h4⟩ := bind_some h2
    obtain ⟨t', rfl, w'⟩ := ih.optExpr _ _ _ h3
    cases h4
    exact ⟨t ++ .colon :: t', by simp, by simpa using Writes.stride w0 w1 w w'⟩
  · cases h2
    exact ⟨t, rfl, Writes.slice w0 w1 w⟩

theorem sound_index {k} (ih : Snd k) (a ts x r) (h : arrayIndex (k+1) a ts = some (x, r)) (t0) (w0 : Writes (.e 12 a) t0) :
    ∃ t, ts = t ++ r ∧ Writes (.e 12 x) (t0 ++ .os :: t ++ [.cs]) := by
  rw [Snek.Parse.arrayIndex.eq_def] at h
  dsimp only at h
  split at h
  · obtain ⟨⟨b, u⟩, h1, h2⟩ := bind_some h
    obtain ⟨t, rfl, w⟩ := ih.lvl _ _ _ _ (by decide) h1
    dsimp only at h2
    split at h2
    · obtain ⟨t', rfl, w'⟩ := ih.slice _ _ _ _ _ h2 _ _ w0 (.opt1 w)
      exact ⟨t ++ .colon :: t', by simp, by simpa using w'⟩
    · cases h2
      exact ⟨t, rfl, .index w0 w⟩
  · split at h
    · obtain ⟨t', rfl, w'⟩ := ih.slice _ _ _ _ _ h _ _ w0 .opt0
      exact ⟨.colon :: t', by simp, by simpa using w'⟩
    · cases h

theorem sound_optActuals {k} (ih : Snd k) (ts es ns r) (h : optActuals (k+1) ts = some (es, ns, r)) :
    ∃ t, ts = t ++ r ∧ Writes (.acts es ns) t := by
  rw [Snek.Parse.optActuals.eq_def] at h
  dsimp only at h
  split at h
  · obtain ⟨_, hn, t, c, rfl, hc, w⟩ := ih.actuals _ _ _ _ _ _ h
    refine ⟨t ++ c, rfl, ?_⟩
    rcases hc with rfl | rfl
    · simpa using Writes.acts1 w (by omega)
    · exact Writes.actsC w (by omega)
  · cases h; exact ⟨[], rfl, .acts0⟩

theorem sound_actuals {k} (ih : Snd k) (n nm ts es ns r) (h : actuals (k+1) n nm ts = some (es, ns, r)) :
    (nm = true → es = .nil) ∧
    n + es.length ≤ max n 256 ∧ ∃ t c, ts = t ++ c ++ r ∧ (c = [] ∨ c = [.comma]) ∧ Writes (.args es ns) t := by
  rw [Snek.Parse.actuals.eq_def] at h
  obtain ⟨⟨e, u⟩, h1, h2⟩ := bind_some h
  obtain ⟨t, rfl, w⟩ := ih.lvl _ _ _ _ (by decide) h1
  dsimp only at h2
  split at h2
  · split at h2
    · obtain ⟨⟨v, u⟩, h3, h4⟩ := bind_some h2
      obtain ⟨⟨es', ns', u'⟩, h5, h6⟩ := bind_some h4
      obtain ⟨t1, rfl, w1⟩ := ih.lvl _ _ _ _ (by decide) h3
      cases h6
      obtain ⟨hnm, hn, hh⟩ := ih.actualsP _ _ _ _ _ _ h5
      obtain rfl := hnm rfl
      refine ⟨fun _ => rfl, hn, ?_⟩
      rcases hh with ⟨-, rfl, c, rfl, hc⟩ | ⟨t2, c, rfl, hc, w2⟩
      · exact ⟨t ++ .assign _ :: t1, c, by simp <;> rfl, hc, .nam1 _ w w1⟩
      · exact ⟨t ++ .assign _ :: t1 ++ .comma :: t2, c, by simp <;> rfl, hc, .namC _ w w1 w2⟩
    · cases h2
  · split at h2
    · cases h2
    · rename_i hc
      obtain ⟨⟨es', ns', u'⟩, h5, h6⟩ := bind_some h2
      cases h6
      obtain ⟨-, hn, hh⟩ := ih.actualsP _ _ _ _ _ _ h5
      simp at hc
      refine ⟨fun h => by simp [h] at hc, by simp only [Exprs.length]; omega, ?_⟩
      rcases hh with ⟨rfl, rfl, c, rfl, hc⟩ | ⟨t2, c, rfl, hc, w2⟩
      · exact ⟨t, c, by simp, hc, .pos1 w⟩
      · exact ⟨t ++ .comma :: t2, c, by simp, hc, .posC w w2⟩

theorem sound_actualsP {k} (ih : Snd k) (n nm ts es ns r) (h : actualsP (k+1) n nm ts = some (es, ns, r)) :
    (nm = true → es = .nil) ∧
    n + es.length ≤ max n 256 ∧
    ((es = .nil ∧ ns = .nil ∧ ∃ c, ts = c ++ r ∧ (c = [] ∨ c = [.comma])) ∨
     ∃ t c, ts = .comma :: t ++ c ++ r ∧ (c = [] ∨ c = [.comma]) ∧ Writes (.args es ns) t) := by
  rw [Snek.Parse.actualsP.eq_def] at h
  split at h
  · cases h
  · cases ‹k + 1 = _›
    split at h
    · obtain ⟨a, b, t, c, rfl, hc, w⟩ := ih.actuals _ _ _ _ _ _ h
      exact ⟨a, b, .inr ⟨t, c, by simp, hc, w⟩⟩
    · cases h
      exact ⟨fun _ => rfl, by simp only [Exprs.length]; omega, .inl ⟨rfl, rfl, [.comma], rfl, .inr rfl⟩⟩
  · cases h
    exact ⟨fun _ => rfl, by simp only [Exprs.length]; omega, .inl ⟨rfl, rfl, [], rfl, .inl rfl⟩⟩

theorem sound_optEnts {k} (ih : Snd k) (ts es r) (h : optEnts (k+1) ts = some (es, r)) :
    ∃ t, ts = t ++ r ∧ Writes (.ents es) t ∧
    (t = [] ∧ es = .nil ∨ ∃ u c, t = u ++ c ∧ (c = [] ∨ c = [.comma]) ∧ Writes (.pairs es) u) := by
  rw [Snek.Parse.optEnts.eq_def] at h
  dsimp only at h
  split at h
  · obtain ⟨t, c, rfl, hc, w⟩ := ih.ents _ _ _ h
    exact ⟨t ++ c, rfl, writes_ents w hc, .inr ⟨t, c, rfl, hc, w⟩⟩
  · cases h; exact ⟨[], rfl, .ents0, .inl ⟨rfl, rfl⟩⟩

theorem sound_ents {k} (ih : Snd k) (ts es r) (h : ents (k+1) ts = some (es, r)) :
    ∃ t c, ts = t ++ c ++ r ∧ (c = [] ∨ c = [.comma]) ∧ Writes (.pairs es) t := by
  rw [Snek.Parse.ents.eq_def] at h
  obtain ⟨⟨e, u⟩, h1, h2⟩ := bind_some h
  obtain ⟨t, rfl, w⟩ := ih.lvl _ _ _ _ (by decide) h1
  dsimp only at h2
  split at h2
  · obtain ⟨⟨v, u⟩, h3, h4⟩ := bind_some h2
    obtain ⟨t1, rfl, w1⟩ := ih.lvl _ _ _ _ (by decide) h3
    dsimp only at h4
    split at h4
    · obtain ⟨⟨es', u'⟩, h5, h6⟩ := bind_some h4
      cases h6
      obtain ⟨t2, rfl, -, hh⟩ := ih.optEnts _ _ _ h5
      rcases hh with ⟨rfl, rfl⟩ | ⟨t3, c, rfl, hc, w3⟩
      · exact ⟨t ++ .colon :: t1, [.comma], by simp, .inr rfl, .pair w w1⟩
      · exact ⟨t ++ .colon :: t1 ++ .comma :: t3, c, by simp, hc, .pairC w w1 w3⟩
    · cases h4
      exact ⟨t ++ .colon :: t1, [], by simp, .inl rfl, .pair w w1⟩
  · cases h2

theorem named_nil {es : Exprs} {ns : Named} (h : ¬ es.length + 256 * ns.length ≥ 256) : ns = .nil ∧ es.length < 256 := by
  cases ns with
  | cons _ _ _ => simp only [Named.length] at h; omega
  | nil => exact ⟨rfl, by simp only [Named.length] at h; omega⟩

theorem sound_prim {k} (ih : Snd k) (ts x r) (h : prim (k+1) ts = some (x, r)) : ∃ t, ts = t ++ r ∧ Writes (.e 13 x) t := by
  rw [Snek.Parse.prim.eq_def] at h
  split at h
  · cases h
  · cases ‹k + 1 = _›
    split at h
    · obtain ⟨⟨e, u⟩, h1, h2⟩ := bind_some h
      obtain ⟨t, rfl, w⟩ := ih.lvl _ _ _ _ (by decide) h1
      dsimp only at h2
      split at h2
      · cases h2; exact ⟨.op :: t ++ [.cp], by simp, .paren w⟩
      · obtain ⟨⟨es, ns, u⟩, h3, h4⟩ := bind_some h2
        obtain ⟨t1, rfl, w1⟩ := ih.optActuals _ _ _ _ h3
        dsimp only at h4
        split at h4
        · cases h4
        · split at h4
          · cases h4
            rename_i hlen _ _
            obtain ⟨rfl, hlt⟩ := named_nil hlen
            exact ⟨.op :: t ++ .comma :: t1 ++ [.cp], by simp, .tuple w w1 hlt⟩
          · cases h4
      · cases h2
    · split at h
      · cases h; exact ⟨[.op, .cp], rfl, .tuple0⟩
      · cases h
  · cases ‹k + 1 = _›
    obtain ⟨⟨es, ns, u⟩, h3, h4⟩ := bind_some h
    obtain ⟨t1, rfl, w1⟩ := ih.optActuals _ _ _ _ h3
    dsimp only at h4
    split at h4
    · split at h4
      · cases h4
      · cases h4
        rename_i hlen
        obtain ⟨rfl, hlt⟩ := named_nil hlen
        exact ⟨.os :: t1 ++ [.cs], by simp, .list w1 hlt⟩
    · cases h4
  · cases ‹k + 1 = _›
    obtain ⟨⟨es, u⟩, h3, h4⟩ := bind_some h
    obtain ⟨t1, rfl, w1, -⟩ := ih.optEnts _ _ _ h3
    dsimp only at h4
    split at h4
    · cases h4; exact ⟨.oc :: t1 ++ [.cc], by simp, .dict w1⟩
    · cases h4
  · cases h; exact ⟨[_], rfl, .name _⟩
  · cases h; exact ⟨[_], rfl, .num _⟩
  · rename_i s ts _
    have h := Option.some.inj h
    obtain ⟨u, e, w⟩ := writes_strings ts (Writes.str s)
    exact ⟨.string s :: u, by rw [h] at e; rw [List.cons_append, ← e], .strs (by rw [h] at w; exact w)⟩
  · cases h

theorem sound (k : Nat) : Snd k := by
  induction k with
  | zero =>
    constructor
    · intro _ _ _ _ _ h; rw [Snek.Parse.lvl] at h; cases h
    · intro _ _ _ _ _ _ h; rw [Snek.Parse.tail] at h; cases h
    · intro _ _ _ h; rw [Snek.Parse.chain] at h; cases h
    · intro _ _ _ _ h; rw [Snek.Parse.arrayIndex] at h; cases h
    · intro _ _ _ _ _ h; rw [Snek.Parse.slice] at h; cases h
    · intro _ _ _ h; rw [Snek.Parse.optExpr] at h; cases h
    · intro _ _ _ h; rw [Snek.Parse.prim] at h; cases h
    · intro _ _ _ _ h; rw [Snek.Parse.optActuals] at h; cases h
    · intro _ _ _ _ _ _ h; rw [Snek.Parse.actuals] at h; cases h
    · intro _ _ _ _ _ _ h; rw [Snek.Parse.actualsP] at h; cases h
    · intro _ _ _ h; rw [Snek.Parse.optEnts] at h; cases h
    · intro _ _ _ h; rw [Snek.Parse.ents] at h; cases h
  | succ k ih =>
    exact ⟨sound_lvl ih, sound_tail ih, sound_chain ih, sound_index ih, sound_slice ih, sound_optExpr ih, sound_prim ih,
      sound_optActuals ih, sound_actuals ih, sound_actualsP ih, sound_optEnts ih, sound_ents ih⟩

end Snek.Parse
