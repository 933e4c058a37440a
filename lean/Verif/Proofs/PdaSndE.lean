import Verif.Proofs.PdaGo
import Verif.Proofs.ParseComplete
/-! What the table-driven parser gets through is an expression: runs to the end, read backwards. -/
namespace Snek.Pda
open Snek.Vm Snek.Lang Snek.Lex Snek.Parse Spec.Syntax

variable {conv : BitVec 32 → BitVec 8} {W : Nat}

/-! ## Going on after a construct -/

theorem Go.lvlR {s : PSt} {n l stk tl b s' x r} (hW : 2 ≤ W) (hl : l ≤ 12) (h : Go W conv n (.n (.lvl l) :: stk) (s.lk tl b) s')
    (hf : Fine W tl) (e : Ev fun k => Parse.lvl k l (tl.map Prod.fst) = some (x, r)) :
    ∃ rl, rl.map Prod.fst = r ∧ rl <:+ tl ∧ Go W conv n stk (s.lk rl (emitE W conv x b)) s' := by
  obtain ⟨V0, F0, D⟩ := h.det
  obtain ⟨k, e⟩ := e
  obtain ⟨rl, e1, su, R⟩ := (okE (z := ⟨W, max V0 (s.vals.length + needE x), F0⟩) (conv := conv) hW k).lvl _ _ _ _ hl (e k (Nat.le_refl k)) hf
  exact ⟨rl, e1, su, D _ _ (Nat.le_max_left ..) (Nat.le_refl _) _ _ (R s stk b (Nat.le_max_right ..))⟩

theorem Go.lvl13R {s : PSt} {n y stk tl b s' x r} (hW : 2 ≤ W) (h : Go W conv n (.n (.lvl 13) :: .n y :: stk) (s.lk tl b) s')
    (hf : Fine W tl) (e : Ev fun k => Parse.lvl k 13 (tl.map Prod.fst) = some (x, r)) :
    ∃ rl, rl.map Prod.fst = r ∧ rl <:+ tl ∧ Go W conv n (.n y :: stk) (s.lk rl (emitE W conv x b)) s' := by
  obtain ⟨V0, F0, D⟩ := h.det
  obtain ⟨k, e⟩ := e
  obtain ⟨rl, e1, su, R⟩ := (okE (z := ⟨W, max V0 (s.vals.length + needE x), F0⟩) (conv := conv) hW k).lvl13 _ _ _ (e k (Nat.le_refl k)) hf
  exact ⟨rl, e1, su, D _ _ (Nat.le_max_left ..) (Nat.le_refl _) _ _ (R s y stk b (Nat.le_max_right ..))⟩

theorem Go.tailR {s : PSt} {n l stk tl b s' a x r} (hW : 2 ≤ W) (hl : l ≤ 12) (h3 : l ≠ 3)
    (h : Go W conv n (.n (.tail l) :: stk) (s.lk tl (emitE W conv a b)) s')
    (hf : Fine W tl) (e : Ev fun k => Parse.tail k l a (tl.map Prod.fst) = some (x, r)) :
    ∃ rl, rl.map Prod.fst = r ∧ rl <:+ tl ∧ Go W conv n stk (s.lk rl (emitE W conv x b)) s' := by
  obtain ⟨V0, F0, D⟩ := h.det
  obtain ⟨k, e⟩ := e
  obtain ⟨rl, e1, su, _, R⟩ := (okE (z := ⟨W, max V0 (s.vals.length + needE x), F0⟩) (conv := conv) hW k).tail _ _ _ _ _ hl h3 (e k (Nat.le_refl k)) hf
  exact ⟨rl, e1, su, D _ _ (Nat.le_max_left ..) (Nat.le_refl _) _ _ (R s stk b (Nat.le_max_right ..))⟩

theorem Go.arrayIndexR {s : PSt} {n stk tl b s' a x r} (hW : 2 ≤ W)
    (h : Go W conv n (.n .arrayIndex :: stk) (s.lk tl (emitE W conv a b).pushPrev) s')
    (hf : Fine W tl) (e : Ev fun k => Parse.arrayIndex k a (tl.map Prod.fst) = some (x, r)) :
    ∃ rl vs b' V F, rl.map Prod.fst = r ∧ rl <:+ tl ∧ Go W conv n stk ((s.with vs).lk rl b') s' ∧
      ∀ u t, Pda.act ⟨W, V, F⟩ conv .index ((s.with vs).ul u t b') = .ok (s.ul u t (emitE W conv x b)) := by
  obtain ⟨V0, F0, D⟩ := h.det
  obtain ⟨k, e⟩ := e
  obtain ⟨rl, e1, su, _, R⟩ := (okE (z := ⟨W, max V0 (s.vals.length + needE x), F0⟩) (conv := conv) hW k).arrayIndex _ _ _ _ (e k (Nat.le_refl k)) hf
  obtain ⟨vs, b', R1, R2⟩ := R s stk b (Nat.le_max_right ..)
  exact ⟨rl, vs, b', _, _, e1, su, D _ _ (Nat.le_max_left ..) (Nat.le_refl _) _ _ R1, R2⟩

theorem Go.optExprR {s : PSt} {n stk tl b s' o r} (hW : 2 ≤ W) (h : Go W conv n (.n .optExpr :: stk) (s.lk tl b) s')
    (hf : Fine W tl) (e : Ev fun k => Parse.optExpr k (tl.map Prod.fst) = some (o, r)) :
    ∃ rl, rl.map Prod.fst = r ∧ rl <:+ tl ∧ Go W conv n stk ((s.with (o.isSome.toNat :: s.vals)).lk rl (emitOpt2 W conv o b)) s' := by
  obtain ⟨V0, F0, D⟩ := h.det
  obtain ⟨k, e⟩ := e
  obtain ⟨rl, e1, su, R⟩ := (okE (z := ⟨W, max V0 (s.vals.length + (1 + needO o)), F0⟩) (conv := conv) hW k).optExpr _ _ _ (e k (Nat.le_refl k)) hf
  exact ⟨rl, e1, su, D _ _ (Nat.le_max_left ..) (Nat.le_refl _) _ _ (R s stk b (Nat.le_max_right ..))⟩

theorem Go.optActualsR {s : PSt} {n stk tl b s' es ns r} (hW : 2 ≤ W) (h : Go W conv n (.n .optActuals :: stk) (s.lk tl b) s')
    (hf : Fine W tl) (e : Ev fun k => Parse.optActuals k (tl.map Prod.fst) = some (es, ns, r)) :
    ∃ rl, rl.map Prod.fst = r ∧ rl <:+ tl ∧ Go W conv n stk
      ((s.with ((es.length + 256 * ns.length) :: s.vals)).lk rl (emitNamed W conv ns (emitArgs W conv es b))) s' := by
  obtain ⟨V0, F0, D⟩ := h.det
  obtain ⟨k, e⟩ := e
  obtain ⟨rl, e1, su, R⟩ := (okE (z := ⟨W, max V0 (s.vals.length + (1 + max (needL es) (needN ns))), F0⟩) (conv := conv) hW k).optActuals _ _ _ _ (e k (Nat.le_refl k)) hf
  exact ⟨rl, e1, su, D _ _ (Nat.le_max_left ..) (Nat.le_refl _) _ _ (R s stk b (Nat.le_max_right ..))⟩

theorem Go.optEntsR {s : PSt} {n stk tl b s' es r y c} (hW : 2 ≤ W) (hy : y = .optEnts ∨ y = .entsEnd)
    (h : Go W conv n (.n y :: stk) ((s.with (c :: s.vals)).lk tl b) s')
    (hf : Fine W tl) (e : Ev fun k => Parse.optEnts k (tl.map Prod.fst) = some (es, r)) :
    ∃ rl, rl.map Prod.fst = r ∧ rl <:+ tl ∧ Go W conv n stk ((s.with ((c + es.length) :: s.vals)).lk rl (emitArgs W conv es b)) s' := by
  obtain ⟨V0, F0, D⟩ := h.det
  obtain ⟨k, e⟩ := e
  obtain ⟨rl, e1, su, R⟩ := (okE (z := ⟨W, max V0 (s.vals.length + (1 + needL es)), F0⟩) (conv := conv) hW k).optEnts _ _ _ (e k (Nat.le_refl k)) hf
  exact ⟨rl, e1, su, D _ _ (Nat.le_max_left ..) (Nat.le_refl _) _ _ (R y s stk b c hy (Nat.le_max_right ..))⟩

/-! ## The statements -/

/-- What the parser gets through in at most `n` steps can be read by the recursive functions. -/
structure Snd (W : Nat) (conv : BitVec 32 → BitVec 8) (n : Nat) : Prop where
  lvl : ∀ {l stk s' tl b} {s : PSt}, l ≤ 12 → Go W conv n (.n (.lvl l) :: stk) (s.lk tl b) s' → Fine W tl →
    ∃ p, Ev fun k => Parse.lvl k l (tl.map Prod.fst) = some p
  lvl13 : ∀ {y stk s' tl b} {s : PSt}, Go W conv n (.n (.lvl 13) :: .n y :: stk) (s.lk tl b) s' → Fine W tl →
    ∃ p, Ev fun k => Parse.lvl k 13 (tl.map Prod.fst) = some p
  tail : ∀ {l a stk s' tl b} {s : PSt}, l ≤ 12 → l ≠ 3 → Go W conv n (.n (.tail l) :: stk) (s.lk tl (emitE W conv a b)) s' → Fine W tl →
    ∃ p, Ev fun k => Parse.tail k l a (tl.map Prod.fst) = some p
  chain : ∀ {off stk s' tl b} {s : PSt}, Go W conv n (.n (.tail 3) :: .a .cmpEnd :: stk) ((s.with (off :: s.vals)).lk tl b) s' → Fine W tl →
    ∃ p, Ev fun k => Parse.chain k (tl.map Prod.fst) = some p
  arrayIndex : ∀ {a stk s' tl b} {s : PSt}, Go W conv n (.n .arrayIndex :: .t .cs :: stk) (s.lk tl b) s' → Fine W tl →
    ∃ p, Ev fun k => Parse.arrayIndex k a (tl.map Prod.fst) = some p
  slice : ∀ {a o stk s' tl b} {s : PSt}, Go W conv n (.n .optExpr :: .n .sliceP :: .a .push1 :: stk) (s.lk tl b) s' → Fine W tl →
    ∃ p, Ev fun k => Parse.slice k a o (tl.map Prod.fst) = some p
  optExpr : ∀ {stk s' tl b} {s : PSt}, Go W conv n (.n .optExpr :: stk) (s.lk tl b) s' → Fine W tl →
    ∃ p, Ev fun k => Parse.optExpr k (tl.map Prod.fst) = some p
  optActuals : ∀ {stk s' tl b} {s : PSt}, Go W conv n (.n .optActuals :: stk) (s.lk tl b) s' → Fine W tl →
    ∃ p, Ev fun k => Parse.optActuals k (tl.map Prod.fst) = some p
  actuals : ∀ {i nm c stk s' tl b} {s : PSt}, (nm = false → c = i) → (nm = true → 256 ≤ c) →
    Go W conv n (.n (.lvl 0) :: .n .actualP :: .n .actualsP :: stk) ((s.with (c :: s.vals)).lk tl b) s' → Fine W tl →
    ∃ p, Ev fun k => Parse.actuals k i nm (tl.map Prod.fst) = some p
  actualsP : ∀ {i nm c stk s' tl b} {s : PSt}, (nm = false → c = i) → (nm = true → 256 ≤ c) →
    Go W conv n (.n .actualsP :: stk) ((s.with (c :: s.vals)).lk tl b) s' → Fine W tl →
    ∃ p, Ev fun k => Parse.actualsP k i nm (tl.map Prod.fst) = some p
  optEnts : ∀ {y c stk s' tl b} {s : PSt}, y = .optEnts ∨ y = .entsEnd → Go W conv n (.n y :: stk) ((s.with (c :: s.vals)).lk tl b) s' →
    Fine W tl → ∃ p, Ev fun k => Parse.optEnts k (tl.map Prod.fst) = some p
  ents : ∀ {c stk s' tl b} {s : PSt}, Go W conv n (.n .ent :: .n .entsP :: stk) ((s.with (c :: s.vals)).lk tl b) s' → Fine W tl →
    ∃ p, Ev fun k => Parse.ents k (tl.map Prod.fst) = some p

variable {n : Nat}

theorem Snd.lvl' (ih : Snd W conv n) (hW : 2 ≤ W) {l stk s' tl b} {s : PSt} (hl : l ≤ 12)
    (h : Go W conv n (.n (.lvl l) :: stk) (s.lk tl b) s') (hf : Fine W tl) :
    ∃ x rl, (Ev fun k => Parse.lvl k l (tl.map Prod.fst) = some (x, rl.map Prod.fst)) ∧ rl <:+ tl ∧ Fine W rl ∧
      Go W conv n stk (s.lk rl (emitE W conv x b)) s' := by
  obtain ⟨⟨x, r⟩, e⟩ := ih.lvl hl h hf
  obtain ⟨rl, rfl, su, g⟩ := h.lvlR hW hl hf e
  exact ⟨x, rl, e, su, hf.suffix su, g⟩

theorem Snd.lvl13' (ih : Snd W conv n) (hW : 2 ≤ W) {y stk s' tl b} {s : PSt}
    (h : Go W conv n (.n (.lvl 13) :: .n y :: stk) (s.lk tl b) s') (hf : Fine W tl) :
    ∃ x rl, (Ev fun k => Parse.lvl k 13 (tl.map Prod.fst) = some (x, rl.map Prod.fst)) ∧ rl <:+ tl ∧ Fine W rl ∧
      Go W conv n (.n y :: stk) (s.lk rl (emitE W conv x b)) s' := by
  obtain ⟨⟨x, r⟩, e⟩ := ih.lvl13 h hf
  obtain ⟨rl, rfl, su, g⟩ := h.lvl13R hW hf e
  exact ⟨x, rl, e, su, hf.suffix su, g⟩

/-! ## Levels -/

/-- The tree of a comparison and what follows. -/
def cmpOf (a : Expr) : Chain → Expr
  | .nil => a
  | .cons r b c => .cmp a r b c

theorem tail_chain {k a ts c r} (h : Parse.chain k ts = some (c, r)) : Parse.tail k 3 a ts = some (cmpOf a c, r) := by
  cases k with
  | zero => rw [Parse.chain] at h; cases h
  | succ k =>
    cases ts with
    | nil => rw [Parse.chain] at h; cases h; rw [Parse.tail]; rfl
    | cons t ts =>
      cases hr : relTok t with
      | none =>
        rw [Parse.chain] at h; simp only [hr] at h; cases h
        rw [Parse.tail]; simp only [hr]; rfl
      | some o =>
        rw [chain_rel k t ts o hr] at h
        obtain ⟨⟨x, u⟩, h1, h2⟩ := bind_some h
        obtain ⟨⟨c', u'⟩, h3, h4⟩ := bind_some h2
        cases h4
        rw [tail_rel k a t ts o hr, h1]
        show (Parse.chain k u >>= _) = _
        rw [h3]; rfl

theorem snd_lvl (ih : Snd W conv n) (hW : 2 ≤ W) {l stk s' tl b} {s : PSt} (hl : l ≤ 12)
    (h : Go W conv (n + 1) (.n (.lvl l) :: stk) (s.lk tl b) s') (hf : Fine W tl) :
    ∃ p, Ev fun k => Parse.lvl k l (tl.map Prod.fst) = some p := by
  by_cases h2 : l = 2
  · subst h2
    rcases hd_cases (tl := tl) (a := .kw .not) nofun with ⟨m, tl, rfl⟩ | ⟨hne, hne'⟩
    · have g := (h.nt' rfl).tkc.pushU (v := 50) (b' := b) rfl
      obtain ⟨x, rl, e, _⟩ := ih.lvl' hW (by decide) g.ntU (hf.suffix suf1)
      exact ⟨_, e.step fun k hk => by rw [List.map_cons, lvl_not, hk]; rfl⟩
    · obtain ⟨x, rl, e, _⟩ := ih.lvl' hW (by decide) (h.nt' (prod_lvl2 hne)) hf
      exact ⟨_, e.step fun k hk => by rw [lvl_2 k _ hne', hk]⟩
  by_cases h10 : l = 10
  · subst h10
    rcases hd_cases (tl := tl) (a := .lnot) nofun with ⟨m, tl, rfl⟩ | ⟨hne, hne'⟩
    · have g := (h.nt' rfl).tkc.pushU (v := 52) (b' := b) rfl
      obtain ⟨x, rl, e, _⟩ := ih.lvl' hW (by decide) g.ntU (hf.suffix suf1)
      exact ⟨_, e.step fun k hk => by rw [List.map_cons, lvl_lnot, hk]; rfl⟩
    rcases hd_cases (tl := tl) (a := .bin .minus) nofun with ⟨m, tl, rfl⟩ | ⟨hm, hm'⟩
    · have g := (h.nt' rfl).tkc.pushU (v := 51) (b' := b) rfl
      obtain ⟨x, rl, e, _⟩ := ih.lvl' hW (by decide) g.ntU (hf.suffix suf1)
      exact ⟨_, e.step fun k hk => by rw [List.map_cons, lvl_minus, hk]; rfl⟩
    rcases hd_cases (tl := tl) (a := .bin .plus) nofun with ⟨m, tl, rfl⟩ | ⟨hp, hp'⟩
    · obtain ⟨x, rl, e, _⟩ := ih.lvl' hW (by decide) (h.nt' rfl).tkc.ntU (hf.suffix suf1)
      exact ⟨_, e.step fun k hk => by rw [List.map_cons, lvl_plus, hk]⟩
    · obtain ⟨x, rl, e, _⟩ := ih.lvl' hW (by decide) (h.nt' (prod_lvl10 hne hm hp)) hf
      exact ⟨_, e.step fun k hk => by rw [lvl_10 k _ hne' hm' hp', hk]⟩
  by_cases h12 : l = 12
  · subst h12
    obtain ⟨x, rl, e, su, hf', g⟩ := ih.lvl13' hW (h.nt' rfl) hf
    obtain ⟨p, e'⟩ := ih.tail (by decide) (by decide) g hf'
    exact ⟨p, (e.and e').step fun k hk => by rw [lvl_gen k 12 _ (by decide) (by decide) (by decide), hk.1]; exact hk.2⟩
  by_cases h3 : l = 3
  · subst h3
    obtain ⟨x, rl, e, su, hf', g⟩ := ih.lvl' hW (by decide) (h.nt' rfl) hf
    have g := g.pushL (v := 0) rfl
    obtain ⟨⟨c, r⟩, e'⟩ := ih.chain (s := s) g hf'
    refine ⟨(cmpOf x c, r), (e.and e').step fun k hk => ?_⟩
    rw [lvl_gen k 3 _ (by decide) (by decide) (by decide), hk.1]
    exact tail_chain hk.2
  · obtain ⟨x, rl, e, su, hf', g⟩ := ih.lvl' hW (by omega) (h.nt' (prod_lvl h2 h10 (by omega) h3 _)) hf
    obtain ⟨p, e'⟩ := ih.tail hl h3 g hf'
    exact ⟨p, (e.and e').step fun k hk => by rw [lvl_gen k l _ h2 h10 (by omega), hk.1]; exact hk.2⟩

theorem snd_tail (ih : Snd W conv n) (hW : 2 ≤ W) {l a stk s' tl b} {s : PSt} (hl : l ≤ 12) (h3 : l ≠ 3)
    (h : Go W conv (n + 1) (.n (.tail l) :: stk) (s.lk tl (emitE W conv a b)) s') (hf : Fine W tl) :
    ∃ p, Ev fun k => Parse.tail k l a (tl.map Prod.fst) = some p := by
  by_cases hc : NotAt l (tl.map Prod.fst)
  · exact ⟨_, Ev.of fun k => tail_stop k l a _ hc⟩
  cases tl with
  | nil => exact absurd (fun h r e => nomatch e) hc
  | cons t tl =>
    obtain ⟨t, m⟩ := t
    replace hc : contLevel t = some l := by
      refine Decidable.byContradiction fun h => hc fun h' r e => ?_
      rw [List.map_cons] at e
      cases e; exact h
    have hf' := hf.suffix suf1
    cases t
    case kw w =>
      cases w <;> cases hc
      case or =>
        obtain ⟨x, rl, e, su, hf2, g⟩ := ih.lvl' hW (by decide) ((h.nt' rfl).tkc.pushU rfl).ntU hf'
        have g := g.actL s (emitE W conv (.or a x) b) rfl
        obtain ⟨p, e'⟩ := ih.tail (by decide) (by decide) g hf2
        exact ⟨p, (e.and e').step fun k hk => by rw [List.map_cons, tail_or, hk.1]; exact hk.2⟩
      case and =>
        obtain ⟨x, rl, e, su, hf2, g⟩ := ih.lvl' hW (by decide) ((h.nt' rfl).tkc.pushU rfl).ntU hf'
        have g := g.actL s (emitE W conv (.and a x) b) rfl
        obtain ⟨p, e'⟩ := ih.tail (by decide) (by decide) g hf2
        exact ⟨p, (e.and e').step fun k hk => by rw [List.map_cons, tail_and, hk.1]; exact hk.2⟩
      case in_ => exact absurd rfl h3
      case is => exact absurd rfl h3
    case cmpop => cases hc; exact absurd rfl h3
    case bin o =>
      cases hc
      by_cases hp : o = .pow
      · subst hp
        obtain ⟨x, rl, e, su, hf2, g⟩ := ih.lvl' hW (by decide) ((h.nt' rfl).tkc.pushU rfl).ntU hf'
        exact ⟨_, e.step fun k hk => by rw [List.map_cons]; exact (tail_pow ..).trans (by rw [hk]; rfl)⟩
      · have hb := binTok_level o hp
        have hl9 := binTok_le hb
        obtain ⟨x, rl, e, su, hf2, g⟩ := ih.lvl' hW (by omega) ((h.nt' (prod_tail_bin hb)).tkc.pushU rfl).ntU hf'
        have g := g.actL s (emitE W conv (.binary o a x) b) rfl
        obtain ⟨p, e'⟩ := ih.tail hl h3 g hf2
        exact ⟨p, (e.and e').step fun k hk => by rw [List.map_cons]; exact (tail_bin _ _ _ _ hp).trans (by rw [hk.1]; exact hk.2)⟩
    case os =>
      cases hc
      have g := ((h.nt' rfl).tkc.actU s _ rfl).ntU
      obtain ⟨⟨x, r⟩, e⟩ := ih.arrayIndex (a := a) g hf'
      obtain ⟨rl, vs, b', V, F, rfl, su, g, hx⟩ := Go.arrayIndexR hW g hf' e
      obtain ⟨t, rl, rfl, ht, g⟩ := g.tk
      obtain ⟨t, m'⟩ := t
      obtain rfl : t = .cs := by simpa [Tm.is] using ht
      have g := (g.actU s _ (hx _ _)).ntU
      obtain ⟨p, e'⟩ := ih.tail (by decide) (by decide) g (hf'.suffix (suf1.trans su))
      refine ⟨p, (e.and e').step fun k hk => ?_⟩
      rw [List.map_cons, Parse.tail, hk.1]
      exact hk.2
    case op =>
      cases hc
      have g := ((h.nt' rfl).tkc.actU s _ rfl).ntU
      obtain ⟨⟨es, ns, r⟩, e⟩ := ih.optActuals g hf'
      obtain ⟨rl, rfl, su, g⟩ := Go.optActualsR hW g hf' e
      obtain ⟨t, rl, rfl, ht, g⟩ := g.tk
      obtain ⟨t, m'⟩ := t
      obtain rfl : t = .cp := by simpa [Tm.is] using ht
      have g := (g.actU s (emitE W conv (.call a es ns) b) rfl).ntU
      obtain ⟨p, e'⟩ := ih.tail (by decide) (by decide) g (hf'.suffix (suf1.trans su))
      refine ⟨p, (e.and e').step fun k hk => ?_⟩
      rw [List.map_cons, Parse.tail, hk.1]
      exact hk.2
    all_goals cases hc
    omega

theorem snd_chain (ih : Snd W conv n) (hW : 2 ≤ W) {off stk s' tl b} {s : PSt}
    (h : Go W conv (n + 1) (.n (.tail 3) :: .a .cmpEnd :: stk) ((s.with (off :: s.vals)).lk tl b) s') (hf : Fine W tl) :
    ∃ p, Ev fun k => Parse.chain k (tl.map Prod.fst) = some p := by
  cases tl with
  | nil => exact ⟨_, Ev.of fun k => by rw [List.map_nil, Parse.chain]⟩
  | cons t tl =>
    cases hr : relTok t.1 with
    | none => exact ⟨_, Ev.of fun k => by rw [List.map_cons, Parse.chain]; simp only [hr]; rfl⟩
    | some o =>
      have g := (h.nt' (prod_tail3 hr)).tkc
      have hf' := hf.suffix suf1
      by_cases h0 : off = 0
      · subst h0
        have g := g.aE (s.vals.length + 4) (s.formals.length + 1) ((cmp_link0 hr).trans (congrArg ARes.ok (push_withU (by show s.vals.length + 1 < s.vals.length + 4; omega))))
          (by show s.vals.length + 1 + 2 ≤ _; omega) (Nat.le_refl _)
        obtain ⟨x, rl, e, su, hf2, g⟩ := ih.lvl' hW (by decide) g.ntU hf'
        have g := g.actL (s.with (b.prev :: s.vals)) _ rfl
        obtain ⟨⟨c, r⟩, e'⟩ := ih.chain (s := s) g hf2
        exact ⟨_, (e.and e').step fun k hk => by rw [List.map_cons, chain_rel _ _ _ _ hr, hk.1]; show (Parse.chain k _ >>= _) = _; rw [hk.2]; rfl⟩
      · have g := g.aE (s.vals.length + 4) (s.formals.length + 1) ((cmp_link hr h0).trans (congrArg ARes.ok (push_withU (by show s.vals.length + 1 < s.vals.length + 4; omega))))
          (by show s.vals.length + 1 + 2 ≤ _; omega) (Nat.le_refl _)
        obtain ⟨x, rl, e, su, hf2, g⟩ := ih.lvl' hW (by decide) g.ntU hf'
        have g := g.actL (s.with (off :: s.vals)) _ rfl
        obtain ⟨⟨c, r⟩, e'⟩ := ih.chain (s := s) g hf2
        exact ⟨_, (e.and e').step fun k hk => by rw [List.map_cons, chain_rel _ _ _ _ hr, hk.1]; show (Parse.chain k _ >>= _) = _; rw [hk.2]; rfl⟩

/-! ## Indices and slices -/

theorem snd_optExpr (ih : Snd W conv n) (hW : 2 ≤ W) {stk s' tl b} {s : PSt}
    (h : Go W conv (n + 1) (.n .optExpr :: stk) (s.lk tl b) s') (hf : Fine W tl) :
    ∃ p, Ev fun k => Parse.optExpr k (tl.map Prod.fst) = some p := by
  by_cases hs : startsExpr (tl.map Prod.fst) = true
  · have g := (h.nt' (prod_optExpr.trans (if_pos hs))).pushL (v := 1) (b' := b.pushPrev) (congrArg ARes.ok push_code)
    obtain ⟨x, rl, e, _⟩ := ih.lvl' hW (by decide) g hf
    exact ⟨_, e.step fun k hk => by rw [Parse.optExpr, if_pos hs, hk]; rfl⟩
  · exact ⟨_, Ev.of fun k => by rw [Parse.optExpr, if_neg hs]⟩

theorem snd_slice (ih : Snd W conv n) (hW : 2 ≤ W) {a o stk s' tl b} {s : PSt}
    (h : Go W conv (n + 1) (.n .optExpr :: .n .sliceP :: .a .push1 :: stk) (s.lk tl b) s') (hf : Fine W tl) :
    ∃ p, Ev fun k => Parse.slice k a o (tl.map Prod.fst) = some p := by
  obtain ⟨⟨x, r⟩, e⟩ := snd_optExpr ih hW h hf
  obtain ⟨rl, rfl, su, g⟩ := h.optExprR hW hf e
  rcases hd_cases (tl := rl) (a := .colon) nofun with ⟨m, rl, rfl⟩ | ⟨hne, hne'⟩
  · have g := (g.nt' rfl).tkc.ntU
    obtain ⟨⟨d, r⟩, e'⟩ := ih.optExpr g ((hf.suffix su).suffix suf1)
    refine ⟨(.slice a o x d, r), (e.and e').step fun k hk => ?_⟩
    rw [Parse.slice, hk.1]
    show (Parse.optExpr k _ >>= _) = _
    rw [hk.2]; rfl
  · refine ⟨(.slice a o x .none, rl.map Prod.fst), e.step fun k hk => ?_⟩
    rw [Parse.slice, hk]
    show (match rl.map Prod.fst with | .colon :: ts => _ | ts => _) = _
    split
    · exact absurd ‹_› (hne' _)
    · rfl

theorem snd_arrayIndex (ih : Snd W conv n) (hW : 2 ≤ W) {a stk s' tl b} {s : PSt}
    (h : Go W conv (n + 1) (.n .arrayIndex :: .t .cs :: stk) (s.lk tl b) s') (hf : Fine W tl) :
    ∃ p, Ev fun k => Parse.arrayIndex k a (tl.map Prod.fst) = some p := by
  by_cases hs : startsExpr (tl.map Prod.fst) = true
  · have g := h.nt' (prod_arrayIndex.trans (if_pos hs))
    obtain ⟨x, rl, e, su, hf', g⟩ := ih.lvl' hW (by decide) g hf
    rcases hd_cases (tl := rl) (a := .colon) nofun with ⟨m, rl, rfl⟩ | ⟨hne, hne'⟩
    · rcases n with _ | _ | n
      · exact g.nt0.elim
      · exact ((g.nt' rfl).pushL (v := 1) rfl).nt0.elim
      · have g := (((g.nt' rfl).pushL (v := 1) rfl).nt' rfl).tkc.ntU.mono (show n ≤ n + 1 + 1 by omega)
        obtain ⟨p, e'⟩ := ih.slice (a := a) (o := .some x) g (hf'.suffix suf1)
        refine ⟨p, (e.and e').step fun k hk => ?_⟩
        unfold Parse.arrayIndex
        rw [if_pos hs, hk.1]
        exact hk.2
    · refine ⟨(.index a x, rl.map Prod.fst), e.step fun k hk => ?_⟩
      unfold Parse.arrayIndex
      rw [if_pos hs, hk]
      show (match rl.map Prod.fst with | .colon :: ts => _ | ts => _) = _
      split
      · exact absurd ‹_› (hne' _)
      · rfl
  · have g := (h.nt' (prod_arrayIndex.trans (if_neg hs))).pushL (v := 0) rfl
    cases n with
    | zero => exact g.nt0.elim
    | succ n =>
      obtain ⟨t, tl, rfl, ht, g⟩ := (g.nt' (p := [.t .colon, .n .optExpr, .n .sliceP, .a .push1]) (by cases (hd tl).1 <;> rfl)).tk
      obtain ⟨t, m⟩ := t
      obtain rfl : t = .colon := by simpa [Tm.is] using ht
      obtain ⟨p, e⟩ := ih.slice (a := a) (o := .none) (g.ntU.mono (Nat.le_succ n)) (hf.suffix suf1)
      exact ⟨p, e.step fun k hk => by unfold Parse.arrayIndex; rw [if_neg hs]; exact hk⟩

/-! ## Actuals -/

theorem snd_optActuals (ih : Snd W conv n) {stk s' tl b} {s : PSt}
    (h : Go W conv (n + 1) (.n .optActuals :: stk) (s.lk tl b) s') (hf : Fine W tl) :
    ∃ p, Ev fun k => Parse.optActuals k (tl.map Prod.fst) = some p := by
  by_cases hs : startsExpr (tl.map Prod.fst) = true
  · have g := h.nt' (prod_optActuals.trans (if_pos hs))
    cases n with
    | zero => exact g.nt0.elim
    | succ n =>
      have g := (g.nt' (p := [.a .push0, .n (.lvl 0), .n .actualP, .n .actualsP]) (by cases (hd tl).1 <;> rfl)).pushL (v := 0) rfl
      obtain ⟨p, e⟩ := ih.actuals (i := 0) (nm := false) (s := s) (fun _ => rfl) nofun (g.mono (Nat.le_succ n)) hf
      exact ⟨p, e.step fun k hk => by rw [Parse.optActuals, if_pos hs]; exact hk⟩
  · exact ⟨_, Ev.of fun k => by rw [Parse.optActuals, if_neg hs]⟩

theorem snd_actualsP (ih : Snd W conv n) {i nm c stk s' tl b} {s : PSt} (h1 : nm = false → c = i) (h2 : nm = true → 256 ≤ c)
    (h : Go W conv (n + 1) (.n .actualsP :: stk) ((s.with (c :: s.vals)).lk tl b) s') (hf : Fine W tl) :
    ∃ p, Ev fun k => Parse.actualsP k i nm (tl.map Prod.fst) = some p := by
  rcases hd_cases (tl := tl) (a := .comma) nofun with ⟨m, tl, rfl⟩ | ⟨hne, hne'⟩
  · have g := (h.nt' rfl).tkc.ntU
    by_cases hs : startsExpr (tl.map Prod.fst) = true
    · cases n with
      | zero => exact g.nt0.elim
      | succ n =>
        have g := (g.nt' (prod_actualsEnd.trans (if_pos hs))).mono (Nat.le_succ n)
        obtain ⟨p, e⟩ := ih.actuals h1 h2 g (hf.suffix suf1)
        exact ⟨p, e.step fun k hk => by rw [List.map_cons, Parse.actualsP, if_pos hs]; exact hk⟩
    · exact ⟨_, Ev.of fun k => by rw [List.map_cons, Parse.actualsP, if_neg hs]⟩
  · exact ⟨_, Ev.of fun k => by rw [Parse.actualsP]; exact fun u => hne' u⟩

/-! ## The last instruction of an expression -/

/-- The opcode of the last instruction in the buffer. -/
def lastOp (b : Buf) : Nat := (b.bytes[b.prev]?.getD 0).toNat

theorem lastOp_add {i : Ins} {b : Buf} (h : i.opcode < 256) : lastOp (b.add W i) = i.opcode := by
  simp only [lastOp, Buf.add, encode]
  rw [List.getElem?_append_right (Nat.le_refl _), Nat.sub_self]
  simp [Nat.mod_eq_of_lt h]

theorem rel_num (r : RelOp) : r.num < 16 := by
  cases r with
  | cmp c => cases c <;> decide
  | _ => decide

theorem lastOp_chain : (c : Chain) → ∀ off b r, lastOp b = (relIns r).opcode → lastOp (emitChain W conv off c b) = 68 ∨
    lastOp (emitChain W conv off c b) < 16
  | .nil, off, b, r, h => by
    rw [emitChain]
    split
    · exact .inl (lastOp_add (by decide))
    · exact .inr (h ▸ rel_num r)
  | .cons r c more, off, b, r', h => by
    have hr : (relIns r).opcode < 256 := Nat.lt_of_lt_of_le (rel_num r) (by decide)
    rw [emitChain]
    split
    · exact lastOp_chain more _ _ r (lastOp_add hr)
    · exact lastOp_chain more _ _ r (lastOp_add hr)

theorem ite_or {p : Prop} [Decidable p] {a b : Ins} : (if p then a else b) = a ∨ (if p then a else b) = b := by
  by_cases h : p
  · exact .inl (if_pos h)
  · exact .inr (if_neg h)

theorem numIns_or {u} : (∃ i, numIns conv u = .int i) ∨ numIns conv u = .num u := by
  rcases ite_or (p := (feq (intToF (match fToInt 8 u with
    | some i => BitVec.ofInt 8 i
    | none => conv u).toInt) u : Prop)) (a := .int _) (b := .num u) with h | h
  · exact .inl ⟨_, h⟩
  · exact .inr h

theorem lastOp_num {u} {b : Buf} : lastOp (b.add W (numIns conv u)) = 43 ∨ lastOp (b.add W (numIns conv u)) = 44 := by
  rcases numIns_or (conv := conv) (u := u) with ⟨i, h⟩ | h <;> rw [h]
  · exact .inr (lastOp_add (show 44 < 256 by decide))
  · exact .inl (lastOp_add (show 43 < 256 by decide))

/-- The last instruction is a name or an index only if the expression is. -/
theorem lastOp_emit (e : Expr) (b : Buf) : (lastOp (emitE W conv e b) = 49 → ∃ x, e = .name x) ∧
    (lastOp (emitE W conv e b) = 16 → ∃ a i, e = .index a i) := by
  have key : ∀ {i : Ins} {b : Buf}, i.opcode < 256 → i.opcode ≠ 49 → i.opcode ≠ 16 →
      (lastOp (b.add W i) = 49 → ∃ x, e = .name x) ∧ (lastOp (b.add W i) = 16 → ∃ a i, e = .index a i) := fun h h1 h2 =>
    ⟨fun h' => absurd ((lastOp_add h).symm.trans h') h1, fun h' => absurd ((lastOp_add h).symm.trans h') h2⟩
  cases e with
  | num u =>
    rw [emitE]
    rcases lastOp_num (W := W) (conv := conv) (u := u) (b := b) with h | h <;> rw [h] <;> exact ⟨nofun, nofun⟩
  | name x => rw [emitE, lastOp_add (i := .id x) (show 49 < 256 by decide)]; exact ⟨fun _ => ⟨x, rfl⟩, nofun⟩
  | index a i => rw [emitE, lastOp_add (i := .array) (by decide)]; exact ⟨nofun, fun _ => ⟨a, i, rfl⟩⟩
  | cmp a r c more =>
    rw [emitE]
    have hr : (relIns r).opcode < 256 := Nat.lt_of_lt_of_le (rel_num r) (by decide)
    rcases lastOp_chain (W := W) (conv := conv) more _ _ r (lastOp_add hr) with h | h
    · rw [h]; exact ⟨nofun, nofun⟩
    · exact ⟨fun e => absurd (e ▸ h) (by decide), fun e => absurd (e ▸ h) (by decide)⟩
  | str o => rw [emitE]; exact key (show 45 < 256 by decide) (show 45 ≠ 49 by decide) (show 45 ≠ 16 by decide)
  | unary op e => rw [emitE]; cases op <;> exact key (by decide) (by decide) (by decide)
  | binary op a c => rw [emitE]; cases op <;> exact key (by decide) (by decide) (by decide)
  | and a c => rw [emitE]; exact key (by decide) (by decide) (by decide)
  | or a c => rw [emitE]; exact key (by decide) (by decide) (by decide)
  | slice a s e t => rw [emitE]; exact key (show 54 < 256 by decide) (show 54 ≠ 49 by decide) (show 54 ≠ 16 by decide)
  | call f args named => rw [emitE]; exact key (show 53 < 256 by decide) (show 53 ≠ 49 by decide) (show 53 ≠ 16 by decide)
  | build k es =>
    rw [emitE]
    cases k
    · exact key (show 46 < 256 by decide) (show 46 ≠ 49 by decide) (show 46 ≠ 16 by decide)
    · exact key (show 47 < 256 by decide) (show 47 ≠ 49 by decide) (show 47 ≠ 16 by decide)
    · exact key (show 48 < 256 by decide) (show 48 ≠ 49 by decide) (show 48 ≠ 16 by decide)

theorem snd_actuals (ih : Snd W conv n) (hW : 2 ≤ W) {i nm c stk s' tl b} {s : PSt} (h1 : nm = false → c = i) (h2 : nm = true → 256 ≤ c)
    (h : Go W conv (n + 1) (.n (.lvl 0) :: .n .actualP :: .n .actualsP :: stk) ((s.with (c :: s.vals)).lk tl b) s') (hf : Fine W tl)
    (hlvl : ∃ p, Ev fun k => Parse.lvl k 0 (tl.map Prod.fst) = some p) :
    ∃ p, Ev fun k => Parse.actuals k i nm (tl.map Prod.fst) = some p := by
  obtain ⟨⟨e, r⟩, e1⟩ := hlvl
  obtain ⟨rl, rfl, su, g⟩ := h.lvlR hW (by decide) hf e1
  have hf' := hf.suffix su
  by_cases ha : ∃ o m u, rl = (.assign o, m) :: u
  · obtain ⟨o, m, rl, rfl⟩ := ha
    have g := (g.nt' rfl).tkc
    by_cases hn : lastOp (emitE W conv e b) = 49
    · obtain ⟨x, rfl⟩ := (lastOp_emit e b).1 hn
      obtain ⟨k, hk⟩ := e1
      have hx : x < 256 ^ W := name_fits (z := ⟨W, 0, 0⟩) hf (hk k (Nat.le_refl k))
      have g := g.actU (s.with (c :: s.vals)) _ (arg_name (z := room W _) hx)
      obtain ⟨v, wl, e2, sw, hf2, g⟩ := ih.lvl' hW (by decide) g.ntU (hf'.suffix suf1)
      have g := g.actL (s.with ((c + 256) :: s.vals)) _ (count1 (z := room W _) (by show s.vals.length < s.vals.length + 1 + 2; omega))
      obtain ⟨⟨es, ns, r⟩, e3⟩ := ih.actualsP (i := i) (nm := true) (s := s) nofun (fun _ => by omega) g hf2
      refine ⟨(es, .cons x v ns, r), (Ev.and (Ev.and ⟨k, hk⟩ e2) e3).step fun k hk => ?_⟩
      unfold Parse.actuals
      rw [hk.1.1]
      show (Parse.lvl k 0 _ >>= _) = _
      rw [hk.1.2]
      show (Parse.actualsP k i true _ >>= _) = _
      rw [hk.2]; rfl
    · exfalso
      exact g.bad (if_pos hn)
  · have hne : ∀ o u, rl.map Prod.fst ≠ .assign o :: u := fun o u e => by
      obtain ⟨m, vl, rfl, _⟩ := map_cons e
      exact ha ⟨o, m, vl, rfl⟩
    have g := g.nt' (prod_actualP fun o e => by
      cases rl with
      | nil => cases e
      | cons t ul => exact ha ⟨o, t.2, ul, by rw [← show t.1 = _ from e]⟩)
    by_cases hc : 256 ≤ c
    · exfalso
      exact g.bad (if_pos hc)
    · have hnm : nm = false := by cases nm with
        | false => rfl
        | true => exact absurd (h2 rfl) hc
      subst hnm
      obtain rfl := h1 rfl
      have g := g.actL (s.with ((c + 1) :: s.vals)) _ ((if_neg hc).trans (count1 (z := room W _) (by show s.vals.length < s.vals.length + 1 + 2; omega)))
      obtain ⟨⟨es, ns, r⟩, e3⟩ := ih.actualsP (i := c + 1) (nm := false) (s := s) (fun _ => rfl) nofun g hf'
      refine ⟨(.cons e es, ns, r), (e1.and e3).step fun k hk => ?_⟩
      unfold Parse.actuals
      rw [hk.1]
      show (match rl.map Prod.fst with | .assign _ :: ts => _ | ts => _) = _
      split
      · exact absurd ‹_› (hne _ _)
      · rw [if_neg (by simp; omega), hk.2]; rfl

/-! ## Dictionaries -/

theorem snd_optEnts (ih : Snd W conv n) {y c stk s' tl b} {s : PSt} (hy : y = .optEnts ∨ y = .entsEnd)
    (h : Go W conv (n + 1) (.n y :: stk) ((s.with (c :: s.vals)).lk tl b) s') (hf : Fine W tl) :
    ∃ p, Ev fun k => Parse.optEnts k (tl.map Prod.fst) = some p := by
  by_cases hs : startsExpr (tl.map Prod.fst) = true
  · obtain ⟨p, e⟩ := ih.ents (h.nt' ((prod_optEnts hy).trans (if_pos hs))) hf
    exact ⟨p, e.step fun k hk => by rw [Parse.optEnts, if_pos hs]; exact hk⟩
  · exact ⟨_, Ev.of fun k => by rw [Parse.optEnts, if_neg hs]⟩

theorem snd_ents (ih : Snd W conv n) (hW : 2 ≤ W) {c stk s' tl b} {s : PSt}
    (h : Go W conv (n + 1) (.n .ent :: .n .entsP :: stk) ((s.with (c :: s.vals)).lk tl b) s') (hf : Fine W tl) :
    ∃ p, Ev fun k => Parse.ents k (tl.map Prod.fst) = some p := by
  have g := h.nt' (p := [.n (.lvl 0), .a .entPart, .t .colon, .n (.lvl 0), .a .entPart]) (by cases (hd tl).1 <;> rfl)
  obtain ⟨x, rl, e, su, hf', g⟩ := ih.lvl' hW (by decide) g hf
  have g := g.actL (s.with ((c + 1) :: s.vals)) _ (count1 (z := room W _) (by show s.vals.length < s.vals.length + 1 + 2; omega))
  obtain ⟨t, rl, rfl, ht, g⟩ := g.tk
  obtain ⟨t, m⟩ := t
  obtain rfl : t = .colon := by simpa [Tm.is] using ht
  obtain ⟨y, wl, e2, sw, hf2, g⟩ := ih.lvl' hW (by decide) g.ntU (hf'.suffix suf1)
  have g := g.actL (s.with ((c + 1 + 1) :: s.vals)) _ (count1 (z := room W _) (by show s.vals.length < s.vals.length + 1 + 2; omega))
  rcases hd_cases (tl := wl) (a := .comma) nofun with ⟨m, wl, rfl⟩ | ⟨hne, hne'⟩
  · cases n with
    | zero => exact g.nt0.elim
    | succ n =>
      have g := ((g.nt' rfl).tkc.ntU).mono (Nat.le_succ n)
      obtain ⟨⟨es, r⟩, e3⟩ := ih.optEnts (s := s) (.inr rfl) g (hf2.suffix suf1)
      refine ⟨(.cons x (.cons y es), r), ((e.and e2).and e3).step fun k hk => ?_⟩
      rw [Parse.ents, hk.1.1]
      show (Parse.lvl k 0 _ >>= _) = _
      rw [hk.1.2]
      show (Parse.optEnts k _ >>= _) = _
      rw [hk.2]; rfl
  · refine ⟨(.cons x (.cons y .nil), wl.map Prod.fst), (e.and e2).step fun k hk => ?_⟩
    rw [Parse.ents, hk.1]
    show (Parse.lvl k 0 _ >>= _) = _
    rw [hk.2]
    show (match wl.map Prod.fst with | .comma :: ts => _ | ts => _) = _
    split
    · exact absurd ‹_› (hne' _)
    · rfl


/-! ## Primaries -/

theorem is_string {t : T} (h : Tm.string.is t = true) : ∃ o, t = .string o := by
  cases t <;> first | exact ⟨_, rfl⟩ | cases h

theorem snd_lvl13 (ih : Snd W conv n) (hW : 2 ≤ W) {y stk s' tl b} {s : PSt}
    (h : Go W conv (n + 1) (.n (.lvl 13) :: .n y :: stk) (s.lk tl b) s') (hf : Fine W tl) :
    ∃ p, Ev fun k => Parse.lvl k 13 (tl.map Prod.fst) = some p := by
  suffices hp : ∃ p, Ev fun k => Parse.prim k (tl.map Prod.fst) = some p by
    obtain ⟨p, e⟩ := hp
    exact ⟨p, e.step fun k hk => by rw [Parse.lvl.eq_def]; exact hk⟩
  cases tl with
  | nil => obtain ⟨p, e, _⟩ := h.nt; cases e
  | cons t tl =>
    have hf' := hf.suffix suf1
    obtain ⟨t, m⟩ := t
    by_cases h1 : t = .op
    · subst h1
      have g := (h.nt' rfl).tkc.ntU
      cases n with
      | zero => exact g.nt0.elim
      | succ n =>
      by_cases hs : startsExpr (tl.map Prod.fst) = true
      · have g := g.nt' (prod_optTuple.trans (if_pos hs))
        obtain ⟨x, rl, e, su, hf2, g⟩ := ih.lvl' hW (by decide) (g.mono (Nat.le_succ n)) hf'
        rcases hd_cases (tl := rl) (a := .comma) nofun with ⟨m, rl, rfl⟩ | ⟨hne, hne'⟩
        · have g := (((g.nt' rfl).tkc.actU s _ rfl).ntU).mono (Nat.le_succ n)
          obtain ⟨⟨es, ns, r⟩, e2⟩ := ih.optActuals g (hf2.suffix suf1)
          obtain ⟨wl, rfl, sw, g⟩ := g.optActualsR hW (hf2.suffix suf1) e2
          by_cases hl : es.length + 256 * ns.length ≥ 256
          · exact (g.bad (if_pos hl)).elim
          · have g := g.actL (s.with ((es.length + 256 * ns.length + 1) :: s.vals)) _ ((if_neg hl).trans
              (congrArg ARes.ok (push_room (s := s.lk _ _) (by show s.vals.length < s.vals.length + 1 + 2; omega))))
            obtain ⟨t, wl, rfl, ht, g⟩ := g.tk
            obtain ⟨t, m⟩ := t
            obtain rfl : t = .cp := by simpa [Tm.is] using ht
            refine ⟨(.build .tuple (.cons x es), wl.map Prod.fst), (e.and e2).step fun k hk => ?_⟩
            rw [List.map_cons, Parse.prim.eq_def]
            refine (if_pos hs).trans ?_
            rw [hk.1]
            show (Parse.optActuals k _ >>= _) = _
            rw [hk.2]
            exact if_neg hl
        · have g := (g.nt' (p := [.a .notTuple]) (by
            generalize (hd rl).1 = u at hne
            cases u <;> first | rfl | exact absurd rfl hne)).pushL (v := 2 ^ (8 * W) - 1) rfl
          obtain ⟨t, wl, rfl, ht, g⟩ := g.tk
          obtain ⟨t, m⟩ := t
          obtain rfl : t = .cp := by simpa [Tm.is] using ht
          refine ⟨(x, wl.map Prod.fst), e.step fun k hk => ?_⟩
          rw [List.map_cons, Parse.prim.eq_def]
          refine (if_pos hs).trans ?_
          rw [hk]; rfl
      · have g := (g.nt' (prod_optTuple.trans (if_neg hs))).pushL (v := 0) rfl
        obtain ⟨t, wl, rfl, ht, g⟩ := g.tk
        obtain ⟨t, m⟩ := t
        obtain rfl : t = .cp := by simpa [Tm.is] using ht
        refine ⟨(.build .tuple .nil, wl.map Prod.fst), Ev.of fun k => ?_⟩
        rw [List.map_cons, Parse.prim.eq_def]
        exact (if_neg hs).trans rfl
    by_cases h2 : t = .os
    · subst h2
      have g := (h.nt' rfl).tkc.ntU
      obtain ⟨⟨es, ns, r⟩, e2⟩ := ih.optActuals g hf'
      obtain ⟨wl, rfl, sw, g⟩ := g.optActualsR hW hf' e2
      obtain ⟨t, wl, rfl, ht, g⟩ := g.tk
      obtain ⟨t, m⟩ := t
      obtain rfl : t = .cs := by simpa [Tm.is] using ht
      by_cases hl : es.length + 256 * ns.length ≥ 256
      · exact (g.bad (if_pos hl)).elim
      · refine ⟨(.build .list es, wl.map Prod.fst), e2.step fun k hk => ?_⟩
        rw [List.map_cons, Parse.prim, hk]
        exact if_neg hl
    by_cases h3 : t = .oc
    · subst h3
      have g := ((h.nt' rfl).tkc.pushU (v := 0) rfl).ntU
      obtain ⟨⟨es, r⟩, e2⟩ := ih.optEnts (s := s) (.inl rfl) g hf'
      obtain ⟨wl, rfl, sw, g⟩ := g.optEntsR (s := s) hW (.inl rfl) hf' e2
      obtain ⟨t, wl, rfl, ht, g⟩ := g.tk
      obtain ⟨t, m⟩ := t
      obtain rfl : t = .cc := by simpa [Tm.is] using ht
      refine ⟨(.build .dict es, wl.map Prod.fst), e2.step fun k hk => ?_⟩
      rw [List.map_cons, Parse.prim, hk]; rfl
    obtain ⟨p, e, _⟩ := h.nt
    cases t
    case name x => exact ⟨_, Ev.of fun k => by rw [List.map_cons, Parse.prim]⟩
    case number x => exact ⟨_, Ev.of fun k => by rw [List.map_cons, Parse.prim]⟩
    case string x => exact ⟨_, Ev.of fun k => by rw [List.map_cons, Parse.prim]⟩
    case op => exact absurd rfl h1
    case os => exact absurd rfl h2
    case oc => exact absurd rfl h3
    all_goals cases e

theorem snd (hW : 2 ≤ W) (n : Nat) : Snd W conv n := by
  induction n with
  | zero =>
    constructor
    · intro _ _ _ _ _ _ _ h; exact h.nt0.elim
    · intro _ _ _ _ _ _ h; exact h.nt0.elim
    · intro _ _ _ _ _ _ _ _ _ h; exact h.nt0.elim
    · intro _ _ _ _ _ _ h; exact h.nt0.elim
    · intro _ _ _ _ _ _ h; exact h.nt0.elim
    · intro _ _ _ _ _ _ _ h; exact h.nt0.elim
    · intro _ _ _ _ _ h; exact h.nt0.elim
    · intro _ _ _ _ _ h; exact h.nt0.elim
    · intro _ _ _ _ _ _ _ _ _ _ h; exact h.nt0.elim
    · intro _ _ _ _ _ _ _ _ _ _ h; exact h.nt0.elim
    · intro _ _ _ _ _ _ _ _ h; exact h.nt0.elim
    · intro _ _ _ _ _ _ h; exact h.nt0.elim
  | succ n ih =>
    exact ⟨snd_lvl ih hW, snd_lvl13 ih hW, snd_tail ih hW, snd_chain ih hW, snd_arrayIndex ih hW, snd_slice ih hW, snd_optExpr ih hW,
      snd_optActuals ih, fun h1 h2 h hf => snd_actuals ih hW h1 h2 h hf (snd_lvl ih hW (by decide) h hf), snd_actualsP ih, snd_optEnts ih, snd_ents ih hW⟩

end Snek.Pda
