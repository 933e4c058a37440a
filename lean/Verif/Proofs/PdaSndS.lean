import Verif.Proofs.PdaSndE
import Verif.Proofs.PdaStat
/-! What the table-driven parser gets through is a statement. -/
namespace Snek.Pda
open Snek.Vm Snek.Lang Snek.Lex Snek.Parse Spec.Syntax

variable {conv : BitVec 32 → BitVec 8} {W : Nat} {n : Nat}

/-! ## Going on -/

theorem Go.on {k k' : List Sym} {s s1 s' : PSt} (h : Go W conv n k s s') (V F : Nat)
    (R : ∀ V' F', V ≤ V' → F ≤ F' → Reach ⟨W, V', F'⟩ conv k s k' s1) : Go W conv n k' s1 s' := by
  obtain ⟨V0, F0, D⟩ := h.det
  exact D _ _ (Nat.le_max_left V0 V) (Nat.le_max_left F0 F) _ _ (R _ _ (Nat.le_max_right ..) (Nat.le_max_right ..))

theorem Go.ntM {s : PSt} {x k tl b s' p} (h : Go W conv n (.n x :: k) (s.lk tl b) s') (e : Pda.prod x (hd tl).1 = some p) :
    Go W conv n (p ++ k) (s.lk tl b) s' := by
  cases n with
  | zero => exact h.nt0.elim
  | succ n => exact (h.nt' e).mono (Nat.le_succ n)

theorem Go.nte {s : PSt} {x k ts m b s'} (h : Go W conv n (.n x :: k) (s.en ts m b) s') : Go W conv n (.n x :: k) (s.lk ts b) s' := by
  cases m with
  | none => exact h
  | some t => exact h.ntU

theorem Go.tke {s : PSt} {x k tl m b s'} (h : Go W conv n (.t x :: k) (s.en tl m b) s') :
    ∃ t tl', tl = t :: tl' ∧ x.is t.1 = true ∧ Go W conv n k (s.ul tl' t b) s' := by
  cases m with
  | none => exact Go.tk (s := s) h
  | some t => exact Go.tkU (s := s) h

theorem Go.actE {s : PSt} {a k ts m b s'} (h : Go W conv n (.a a :: k) (s.en ts m b) s') (s1 : PSt) (b' : Buf)
    (e : Pda.act (room W (s.en ts m b)) conv a (s.en ts m b) = .ok (s1.en ts m b')) : Go W conv n k (s1.en ts m b') s' :=
  h.aE _ _ e (Nat.le_refl _) (Nat.le_refl _)

theorem Go.exL {s : PSt} {l stk tl b s'} (hW : 2 ≤ W) (hl : l ≤ 12) (h : Go W conv n (.n (.lvl l) :: stk) (s.lk tl b) s') (hf : Fine W tl) :
    ∃ e rl, (Ev fun k => exprL k l tl = some (e, rl)) ∧ rl <:+ tl ∧ Fine W rl ∧ Go W conv n stk (s.lk rl (emitE W conv e b)) s' := by
  obtain ⟨x, rl, e, su, hf', g⟩ := (snd hW n).lvl' hW hl h hf
  exact ⟨x, rl, e.mono fun k hk => by unfold exprL; rw [hk]; dsimp only; rw [drop_suffix su rfl], su, hf', g⟩

theorem Go.actsL {s : PSt} {stk tl b s'} (hW : 2 ≤ W) (h : Go W conv n (.n .optActuals :: stk) (s.lk tl b) s') (hf : Fine W tl) :
    ∃ es ns rl, (Ev fun k => optActualsL k tl = some (es, ns, rl)) ∧ rl <:+ tl ∧ Fine W rl ∧ Go W conv n stk
      ((s.with ((es.length + 256 * ns.length) :: s.vals)).lk rl (emitNamed W conv ns (emitArgs W conv es b))) s' := by
  obtain ⟨⟨es, ns, r⟩, e⟩ := (snd hW n).optActuals h hf
  obtain ⟨rl, rfl, su, g⟩ := h.optActualsR hW hf e
  exact ⟨es, ns, rl, e.mono fun k hk => by unfold optActualsL; rw [hk]; dsimp only; rw [drop_suffix su rfl], su, hf.suffix su, g⟩

/-! ## Terminals -/

theorem is_name {t : T} (h : Tm.name.is t = true) : ∃ x, t = .name x := by cases t <;> first | exact ⟨_, rfl⟩ | cases h
theorem is_assign {t : T} (h : Tm.assign.is t = true) : ∃ x, t = .assign x := by cases t <;> first | exact ⟨_, rfl⟩ | cases h
theorem is_indent {t : T} (h : Tm.indent.is t = true) : ∃ x, t = .indent x := by cases t <;> first | exact ⟨_, rfl⟩ | cases h
theorem is_exdent {t : T} (h : Tm.exdent.is t = true) : ∃ x, t = .exdent x := by cases t <;> first | exact ⟨_, rfl⟩ | cases h

/-! ## Small statements -/

theorem lvalue_bad {z : Sizes} {op e ts m b} {s : PSt} (h1 : ∀ x, e ≠ .name x) (h2 : ∀ a i, e ≠ .index a i) :
    lvalue z op (s.en ts m (emitE W conv e b)) = .syntax := by
  unfold lvalue
  refine (if_neg fun h => ?_).trans (if_neg fun h => ?_)
  · obtain ⟨x, e⟩ := (lastOp_emit e b).1 h
    exact h1 x e
  · obtain ⟨a, i, e⟩ := (lastOp_emit e b).2 h
    exact h2 a i e

theorem delOf_none {e} (h : delOf e = none) : (∀ x, e ≠ .name x) ∧ ∀ a i, e ≠ .index a i := by
  cases e <;> first | (cases h; done) | exact ⟨nofun, nofun⟩

theorem assignOf_none {op e v} (h : assignOf op e v = none) : (∀ x, e ≠ .name x) ∧ ∀ a i, e ≠ .index a i := by
  cases e <;> first | (cases h; done) | exact ⟨nofun, nofun⟩

theorem Go.del {s : PSt} {stk tl b s'} (hW : 2 ≤ W) (h : Go W conv n (.n .del :: stk) (s.lk tl b) s') (hf : Fine W tl) :
    ∃ e d rl, (Ev fun k => exprL k 12 tl = some (e, rl)) ∧ delOf e = some d ∧ rl <:+ tl ∧ Fine W rl ∧
      Go W conv n stk (s.lk rl (emitS W conv s.fd d b)) s' := by
  have g := h.ntM (p := [.n (.lvl 12), .a .delLvalue, .a .opLvalue]) (by cases (hd tl).1 <;> rfl)
  obtain ⟨e, rl, e1, su, hf', g⟩ := g.exL hW (by decide) hf
  cases hd : delOf e with
  | none => exact (g.bad (lvalue_bad (m := none) (delOf_none hd).1 (delOf_none hd).2)).elim
  | some d =>
    refine ⟨e, d, rl, e1, hd, su, hf', ?_⟩
    obtain ⟨k, hk⟩ := e1
    exact h.on (s.vals.length + needS d) 0 fun V F hV _ => (ok_del (z := ⟨W, V, F⟩) hW (hk k (Nat.le_refl k)) hd hf).2 s stk b hV

theorem snd_delsP (hW : 2 ≤ W) : ∀ {n : Nat} {s : PSt} {stk tl b s'}, Go W conv n (.n .delsP :: stk) (s.lk tl b) s' → Fine W tl →
    ∃ x rl, (Ev fun k => delsP k tl = some (x, rl)) ∧ rl <:+ tl ∧ Fine W rl ∧ Go W conv n stk (s.lk rl (emitS W conv s.fd x b)) s'
  | 0, _, _, _, _, _, h, _ => h.nt0.elim
  | n+1, s, stk, tl, b, s', h, hf => by
    suffices hp : ∃ p, Ev fun k => delsP k tl = some p by
      obtain ⟨⟨x, rl⟩, k, hk⟩ := hp
      have su := (ok_delsP (z := ⟨W, 0, 0⟩) (conv := conv) hW (hk k (Nat.le_refl k)) hf).1
      exact ⟨x, rl, ⟨k, hk⟩, su, hf.suffix su, h.on (s.vals.length + needS x) 0 fun V F hV _ =>
        (ok_delsP (z := ⟨W, V, F⟩) hW (hk k (Nat.le_refl k)) hf).2 s stk b hV⟩
    by_cases hc : ∃ m u, tl = (.comma, m) :: u
    · obtain ⟨m, tl, rfl⟩ := hc
      have g := (h.nt' rfl).tkc.ntU
      obtain ⟨e, d, rl, e1, hd, su, hf', g⟩ := g.del hW (hf.suffix suf1)
      obtain ⟨x, ul, e2, _⟩ := snd_delsP hW g hf'
      refine ⟨(.seq d x, ul), (e1.and e2).step fun k hk => ?_⟩
      rw [delsP, hk.1]
      show (delOf e >>= _) = _
      rw [hd]
      show (delsP k rl >>= _) = _
      rw [hk.2]; rfl
    · exact ⟨(.skip, tl), Ev.of fun k => by rw [delsP]; exact fun m u e => hc ⟨m, u, e⟩⟩

theorem snd_globalsP : ∀ {n : Nat} {s : PSt} {y stk tl b s'}, Go W conv n (.n .globalsP :: .n y :: stk) (s.lk tl b) s' →
    ∃ p, globalsP tl = some p
  | 0, _, _, _, _, _, _, h => h.nt0.elim
  | n+1, s, y, stk, tl, b, s', h => by
    by_cases hc : ∃ m u, tl = (.comma, m) :: u
    · obtain ⟨m, tl, rfl⟩ := hc
      have g := (h.nt' rfl).tkc.ntU
      have g := g.ntM (p := [.t .name, .a .global]) (by cases (hd tl).1 <;> rfl)
      obtain ⟨t, rl, rfl, ht, g⟩ := g.tk
      obtain ⟨t, m'⟩ := t
      obtain ⟨x, rfl⟩ := is_name ht
      have g := (g.actU s _ rfl).ntU
      obtain ⟨⟨x', ul⟩, e⟩ := snd_globalsP g
      exact ⟨_, by rw [globalsP, e]; rfl⟩
    · refine ⟨(.skip, tl), ?_⟩
      rw [globalsP.eq_def]
      split
      · exact (hc ⟨_, _, rfl⟩).elim
      · exact (hc ⟨_, _, rfl⟩).elim
      · rfl

theorem snd_small (hW : 2 ≤ W) {s : PSt} {y stk tl b s'} (h : Go W conv n (.n .smallStat :: .n y :: stk) (s.lk tl b) s') (hf : Fine W tl) :
    ∃ x rl, (Ev fun k => small k tl = some (x, rl)) ∧ rl <:+ tl ∧ Fine W rl ∧
      Go W conv n (.n y :: stk) (s.lk rl (emitS W conv s.fd x b)) s' := by
  suffices hp : ∃ p, Ev fun k => small k tl = some p by
    obtain ⟨⟨x, rl⟩, k, hk⟩ := hp
    have su := (ok_small (z := ⟨W, 0, 0⟩) (conv := conv) hW (hk k (Nat.le_refl k)) hf).1
    exact ⟨x, rl, ⟨k, hk⟩, su, hf.suffix su, h.on (s.vals.length + needS x) 0 fun V F hV _ =>
      (ok_small (z := ⟨W, V, F⟩) hW (hk k (Nat.le_refl k)) hf).2 s y stk b hV⟩
  by_cases hc : ∃ m u, tl = (.kw .return_, m) :: u
  · obtain ⟨m, tl, rfl⟩ := hc
    have g := (h.ntM rfl).tkc.ntU
    by_cases hs : startsE tl = true
    · obtain ⟨e, rl, e1, _⟩ := (g.ntM (prod_retExpr.trans (if_pos hs))).exL hW (by decide) (hf.suffix suf1)
      exact ⟨_, e1.mono fun k hk => by rw [small, if_pos hs, hk]; rfl⟩
    · exact ⟨_, Ev.of fun k => by rw [small, if_neg hs]⟩
  by_cases hc1 : ∃ m u, tl = (.kw .break_, m) :: u
  · obtain ⟨m, tl, rfl⟩ := hc1
    exact ⟨_, Ev.of fun k => by rw [small]⟩
  by_cases hc2 : ∃ m u, tl = (.kw .continue_, m) :: u
  · obtain ⟨m, tl, rfl⟩ := hc2
    exact ⟨_, Ev.of fun k => by rw [small]⟩
  by_cases hc3 : ∃ m u, tl = (.kw .pass, m) :: u
  · obtain ⟨m, tl, rfl⟩ := hc3
    exact ⟨_, Ev.of fun k => by rw [small]⟩
  by_cases hc4 : ∃ m u, tl = (.kw .global, m) :: u
  · obtain ⟨m, tl, rfl⟩ := hc4
    have g := (h.ntM rfl).tkc.ntU
    by_cases hx : ∃ x m' u, tl = (.name x, m') :: u
    · obtain ⟨x, m', tl, rfl⟩ := hx
      have g := ((g.ntM rfl).ntM (p := [.t .name, .a .global]) rfl).tkc
      obtain ⟨⟨x', ul⟩, e⟩ := snd_globalsP (g.actU s _ rfl).ntU
      exact ⟨_, Ev.of fun k => by rw [small, e]; rfl⟩
    · refine ⟨(.skip, tl), Ev.of fun k => ?_⟩
      cases tl with
      | nil => rfl
      | cons t u =>
        obtain ⟨t, m'⟩ := t
        cases t
        case name x => exact (hx ⟨x, m', u, rfl⟩).elim
        all_goals rfl
  by_cases hc5 : ∃ m u, tl = (.kw .del, m) :: u
  · obtain ⟨m, tl, rfl⟩ := hc5
    have g := (h.ntM rfl).tkc.ntU
    obtain ⟨e, d, rl, e1, hd, su, hf', g⟩ := g.del hW (hf.suffix suf1)
    obtain ⟨x, ul, e2, _⟩ := snd_delsP hW g hf'
    refine ⟨(.seq d x, ul), (e1.and e2).mono fun k hk => ?_⟩
    rw [small, hk.1]
    show (delOf e >>= _) = _
    rw [hd]
    show (delsP k rl >>= _) = _
    rw [hk.2]; rfl
  by_cases hc6 : ∃ m u, tl = (.kw .assert, m) :: u
  · obtain ⟨m, tl, rfl⟩ := hc6
    obtain ⟨e, rl, e1, _⟩ := (h.ntM rfl).tkc.ntU.exL hW (by decide) (hf.suffix suf1)
    exact ⟨_, e1.mono fun k hk => by rw [small, hk]; rfl⟩
  have g := h.ntM (prod_smallStat (hdL_ne (fun n u e => hc ⟨_, _, e⟩) nofun) (hdL_ne (fun n u e => hc1 ⟨_, _, e⟩) nofun)
        (hdL_ne (fun n u e => hc2 ⟨_, _, e⟩) nofun) (hdL_ne (fun n u e => hc3 ⟨_, _, e⟩) nofun)
        (hdL_ne (fun n u e => hc4 ⟨_, _, e⟩) nofun) (hdL_ne (fun n u e => hc5 ⟨_, _, e⟩) nofun) (hdL_ne (fun n u e => hc6 ⟨_, _, e⟩) nofun))
  replace g := g.ntM (p := [.n (.lvl 0), .n .assignExprP]) (by cases (hd tl).1 <;> rfl)
  have E : ∀ k, small k tl = (exprL k 0 tl >>= fun p => match p.2 with
    | (.assign op, _) :: ts => do
      let (v, ts) ← exprL k 0 ts
      let s ← assignOf op p.1 v
      some (s, ts)
    | ts => some (.expr p.1, ts)) := fun k => by
    rw [small.eq_def]
    split <;> first | rfl | skip
    · exact (hc ⟨_, _, rfl⟩).elim
    · exact (hc1 ⟨_, _, rfl⟩).elim
    · exact (hc2 ⟨_, _, rfl⟩).elim
    · exact (hc3 ⟨_, _, rfl⟩).elim
    · exact (hc4 ⟨_, _, rfl⟩).elim
    · exact (hc4 ⟨_, _, rfl⟩).elim
    · exact (hc5 ⟨_, _, rfl⟩).elim
    · exact (hc6 ⟨_, _, rfl⟩).elim
  replace g := g.exL hW (by decide) hf
  obtain ⟨e, rl, e1, su, hf', g⟩ := g
  by_cases ha : ∃ op m u, rl = (.assign op, m) :: u
  · obtain ⟨op, m, rl, rfl⟩ := ha
    replace g := (g.ntM rfl).tkc
    cases hd : assignOf op e (.num 0) with
    | none => exact (g.bad (lvalue_bad (m := some _) (assignOf_none hd).1 (assignOf_none hd).2)).elim
    | some d =>
      replace g : ∃ s1 b1, Go W conv n (.n (.lvl 0) :: [.a .opLvalue] ++ .n y :: stk) (PSt.ul s1 rl (.assign op, m) b1) s' := by
        cases e <;> first | (cases hd; done) | skip
        case name x =>
          obtain ⟨k, hk⟩ := e1
          exact ⟨_, _, g.actU (s.with (op.num :: x :: s.vals)) _ (lvalue_name_en (z := room W _) (m := some _)
            (exprL_name (z := ⟨W, 0, 0⟩) (by decide) hf (hk k (Nat.le_refl k))) (Nat.le_refl _))⟩
        case index a i =>
          exact ⟨_, _, g.actU (s.with (op.num :: 0 :: s.vals)) _ (lvalue_index_en (z := room W _) (m := some _) (aop_ne op) (Nat.le_refl _))⟩
      obtain ⟨s1, b1, g⟩ := g
      obtain ⟨v, ul, e2, _⟩ := g.ntU.exL hW (by decide) (hf'.suffix suf1)
      cases hd' : assignOf op e v with
      | none =>
        exfalso
        cases e <;> first | (cases hd; done) | cases hd'
      | some d' =>
        refine ⟨(d', ul), (e1.and e2).mono fun k hk => ?_⟩
        rw [E, hk.1]
        show (exprL k 0 rl >>= _) = _
        rw [hk.2]
        show (assignOf op e v >>= _) = _
        rw [hd']; rfl
  · refine ⟨(.expr e, rl), e1.mono fun k hk => ?_⟩
    rw [E, hk]
    show (match rl with | (.assign op, _) :: ts => _ | ts => _) = _
    split
    · exact (ha ⟨_, _, _, rfl⟩).elim
    · rfl

theorem snd_smalls (hW : 2 ≤ W) : ∀ {n : Nat} {s : PSt} {stk tl b s'}, Go W conv n (.n .smallStat :: .n .smallStatsP :: stk) (s.lk tl b) s' →
    Fine W tl → ∃ p, Ev fun k => smalls k tl = some p
  | 0, _, _, _, _, _, h, _ => h.nt0.elim
  | n+1, s, stk, tl, b, s', h, hf => by
    obtain ⟨x, rl, e1, su, hf', g⟩ := snd_small hW h hf
    by_cases hc : ∃ m u, rl = (.semi, m) :: u
    · obtain ⟨m, rl, rfl⟩ := hc
      have g := (g.nt' rfl).tkc.ntU
      obtain ⟨⟨r, ul⟩, e2⟩ := snd_smalls hW g (hf'.suffix suf1)
      refine ⟨(.seq x r, ul), (e1.and e2).step fun k hk => ?_⟩
      rw [smalls, hk.1]
      show (smalls k rl >>= _) = _
      rw [hk.2]; rfl
    · refine ⟨(x, rl), e1.step fun k hk => ?_⟩
      rw [smalls, hk]
      show (match rl with | (.semi, _) :: ts => _ | ts => _) = _
      split
      · exact (hc ⟨_, _, rfl⟩).elim
      · rfl

theorem snd_simple (hW : 2 ≤ W) {s : PSt} {stk tl b s'} (h : Go W conv n (.n .simpleStat :: stk) (s.lk tl b) s') (hf : Fine W tl) :
    ∃ p, Ev fun k => simple k tl = some p := by
  have g := h.ntM (p := [.a .addLine, .n .smallStat, .n .smallStatsP, .t .nl]) (by cases (hd tl).1 <;> rfl)
  replace g : ∃ b2, Go W conv n (.n .smallStat :: .n .smallStatsP :: .t .nl :: stk) (s.lk tl b2) s' := ⟨_, g.actL s _ rfl⟩
  obtain ⟨b2, g⟩ := g
  obtain ⟨⟨x, rl⟩, e1⟩ := snd_smalls hW g hf
  have g : ∃ b1, Go W conv n (.t .nl :: stk) (s.lk rl b1) s' := by
    obtain ⟨k, hk⟩ := e1
    exact ⟨emitS W conv s.fd x b2, g.on (s.vals.length + needS x) 0 fun V F hV _ => (ok_smalls (conv := conv) (z := ⟨W, V, F⟩) hW (hk k (Nat.le_refl k)) hf).2 s (.t .nl :: stk) b2 hV⟩
  obtain ⟨b1, g⟩ := g
  obtain ⟨t, rl, rfl, ht, g⟩ := g.tk
  obtain ⟨t, m⟩ := t
  obtain rfl : t = .nl := by simpa [Tm.is] using ht
  cases tl with
  | nil =>
    obtain ⟨k, hk⟩ := e1
    have := (ok_smalls (z := ⟨W, 0, 0⟩) (conv := conv) hW (hk k (Nat.le_refl k)) hf).1
    cases List.suffix_nil.1 this
  | cons t tl =>
    obtain ⟨t, m'⟩ := t
    refine ⟨(.seq (.line m') x, rl), e1.mono fun k hk => ?_⟩
    rw [simple, hk]; rfl

/-! ## Compound statements -/

/-- What the parser gets through in at most `n` steps can be read as statements. -/
structure SndS (W : Nat) (conv : BitVec 32 → BitVec 8) (n : Nat) : Prop where
  stat : ∀ {stk s' tl b} {s : PSt}, Go W conv n (.n .stat :: stk) (s.lk tl b) s' → Fine W tl → ∃ p, Ev fun k => Parse.stat k tl = some p
  elifs : ∀ {stk s' tl b} {s : PSt}, Go W conv n (.n .elifStats :: stk) (s.lk tl b) s' → Fine W tl → ∃ p, Ev fun k => Parse.elifs k tl = some p
  whileElse : ∀ {stk s' tl b} {s : PSt}, Go W conv n (.n .whileElse :: stk) (s.lk tl b) s' → Fine W tl →
    ∃ p, Ev fun k => Parse.whileElse k tl = some p
  suite : ∀ {stk s' tl b} {s : PSt}, Go W conv n (.n .suite :: stk) (s.lk tl b) s' → Fine W tl → ∃ p, Ev fun k => Parse.suite k tl = some p
  stats : ∀ {stk s' tl b} {s : PSt}, Go W conv n (.n .stat :: .n .optStats :: stk) (s.lk tl b) s' → Fine W tl →
    ∃ p, Ev fun k => Parse.stats k tl = some p

theorem Go.statR {s : PSt} {stk tl b s' x rl} (hW : 2 ≤ W) (h : Go W conv n (.n .stat :: stk) (s.lk tl b) s') (hf : Fine W tl)
    (e : Ev fun k => Parse.stat k tl = some (x, rl)) :
    rl <:+ tl ∧ Fine W rl ∧ ∃ m, Go W conv n stk (s.en rl m (emitS W conv s.fd x b)) s' := by
  obtain ⟨V0, F0, D⟩ := h.det
  obtain ⟨k, e⟩ := e
  obtain ⟨su, m, R⟩ := (okS (z := ⟨W, max V0 (s.vals.length + needS x), F0⟩) (conv := conv) hW k).stat _ _ _ (e k (Nat.le_refl k)) hf
  exact ⟨su, hf.suffix su, m, D _ _ (Nat.le_max_left ..) (Nat.le_refl _) _ _ (R s stk b (Nat.le_max_right ..))⟩

theorem Go.suiteR {s : PSt} {stk tl b s' x rl} (hW : 2 ≤ W) (h : Go W conv n (.n .suite :: stk) (s.lk tl b) s') (hf : Fine W tl)
    (e : Ev fun k => Parse.suite k tl = some (x, rl)) :
    rl <:+ tl ∧ Fine W rl ∧ ∃ m, Go W conv n stk (s.en rl m (emitS W conv s.fd x b)) s' := by
  obtain ⟨V0, F0, D⟩ := h.det
  obtain ⟨k, e⟩ := e
  obtain ⟨su, m, R⟩ := (okS (z := ⟨W, max V0 (s.vals.length + (1 + needS x)), F0⟩) (conv := conv) hW k).suite _ _ _ (e k (Nat.le_refl k)) hf
  exact ⟨su, hf.suffix su, m, D _ _ (Nat.le_max_left ..) (Nat.le_refl _) _ _ (R s stk b (Nat.le_max_right ..))⟩

theorem Go.statsR {s : PSt} {stk tl b s' x rl} (hW : 2 ≤ W) (h : Go W conv n (.n .stat :: .n .optStats :: stk) (s.lk tl b) s') (hf : Fine W tl)
    (e : Ev fun k => Parse.stats k tl = some (x, rl)) :
    rl <:+ tl ∧ Fine W rl ∧ Go W conv n stk (s.lk rl (emitS W conv s.fd x b)) s' := by
  obtain ⟨V0, F0, D⟩ := h.det
  obtain ⟨k, e⟩ := e
  obtain ⟨su, R⟩ := (okS (z := ⟨W, max V0 (s.vals.length + needS x), F0⟩) (conv := conv) hW k).stats _ _ _ (e k (Nat.le_refl k)) hf
  exact ⟨su, hf.suffix su, D _ _ (Nat.le_max_left ..) (Nat.le_refl _) _ _ (R s stk b (Nat.le_max_right ..))⟩

theorem SndS.suite' (ih : SndS W conv n) (hW : 2 ≤ W) {stk s' tl b} {s : PSt} (h : Go W conv n (.n .suite :: stk) (s.lk tl b) s') (hf : Fine W tl) :
    ∃ x rl, (Ev fun k => Parse.suite k tl = some (x, rl)) ∧ rl <:+ tl ∧ Fine W rl ∧
      ∃ m, Go W conv n stk (s.en rl m (emitS W conv s.fd x b)) s' := by
  obtain ⟨⟨x, rl⟩, e⟩ := ih.suite h hf
  obtain ⟨su, hf', g⟩ := h.suiteR hW hf e
  exact ⟨x, rl, e, su, hf', g⟩

theorem Go.colon {s : PSt} {k tl b s'} (h : Go W conv n (.t .colon :: k) (s.lk tl b) s') :
    ∃ m tl', tl = (.colon, m) :: tl' ∧ Go W conv n k (s.ul tl' (.colon, m) b) s' := by
  obtain ⟨t, rl, rfl, ht, g⟩ := h.tk
  obtain ⟨t, m⟩ := t
  obtain rfl : t = .colon := by simpa [Tm.is] using ht
  exact ⟨m, rl, rfl, g⟩

theorem snd_suite (ih : SndS W conv n) (hW : 2 ≤ W) {stk s' tl b} {s : PSt}
    (h : Go W conv (n + 1) (.n .suite :: stk) (s.lk tl b) s') (hf : Fine W tl) : ∃ p, Ev fun k => Parse.suite k tl = some p := by
  by_cases hc : ∃ m u, tl = (.nl, m) :: u
  · obtain ⟨m, tl, rfl⟩ := hc
    have g := (h.nt' rfl).tkc
    obtain ⟨t, tl, rfl, ht, g⟩ := g.tkU
    obtain ⟨t, m'⟩ := t
    obtain ⟨old, rfl⟩ := is_indent ht
    have g := (g.pushU (v := old) rfl).ntU
    have hf2 := (hf.suffix suf1).suffix suf1
    obtain ⟨⟨x, rl⟩, e⟩ := ih.stats g hf2
    obtain ⟨su, hf', g⟩ := g.statsR hW hf2 e
    obtain ⟨t, rl, rfl, ht, g⟩ := g.tk
    obtain ⟨t, m''⟩ := t
    obtain ⟨new, rfl⟩ := is_exdent ht
    by_cases hl : new > old
    · exact (g.bad (if_pos hl)).elim
    · refine ⟨(x, rl), e.step fun k hk => ?_⟩
      rw [Parse.suite, hk]
      exact if_neg hl
  · have g := h.nt' (prod_suite (hdL_ne (fun n u e => hc ⟨_, _, e⟩) nofun))
    obtain ⟨p, e⟩ := snd_simple hW g hf
    refine ⟨p, e.step fun k hk => ?_⟩
    rw [Parse.suite.eq_def]
    split
    · cases ‹k + 1 = 0›
    · exact (hc ⟨_, _, rfl⟩).elim
    · exact (hc ⟨_, _, rfl⟩).elim
    · cases ‹k + 1 = _›
      exact hk

theorem snd_whileElse (ih : SndS W conv n) {stk s' tl b} {s : PSt}
    (h : Go W conv (n + 1) (.n .whileElse :: stk) (s.lk tl b) s') (hf : Fine W tl) : ∃ p, Ev fun k => Parse.whileElse k tl = some p := by
  by_cases hc : ∃ m u, tl = (.kw .else_, m) :: u
  · obtain ⟨m, tl, rfl⟩ := hc
    have g := (h.nt' rfl).tkc
    obtain ⟨t, tl, rfl, ht, g⟩ := g.tkU
    obtain ⟨t, m'⟩ := t
    obtain rfl : t = .colon := by simpa [Tm.is] using ht
    obtain ⟨p, e⟩ := ih.suite g.ntU ((hf.suffix suf1).suffix suf1)
    exact ⟨p, e.step fun k hk => by rw [Parse.whileElse]; exact hk⟩
  · refine ⟨(.skip, tl), Ev.of fun k => ?_⟩
    rw [Parse.whileElse.eq_def]
    split
    · cases ‹k + 1 = 0›
    · exact (hc ⟨_, _, rfl⟩).elim
    · exact (hc ⟨_, _, rfl⟩).elim
    · rfl

theorem Go.ifExpr {s : PSt} {stk tl b s'} (hW : 2 ≤ W) (h : Go W conv n (.n .ifExpr :: .n .suite :: stk) (s.lk tl b) s') (hf : Fine W tl) :
    ∃ c m rl, (Ev fun k => exprL k 0 tl = some (c, (.colon, m) :: rl)) ∧ rl <:+ tl ∧ Fine W rl ∧
      ∃ v b', Go W conv n (.n .suite :: stk) ((s.with (v :: s.vals)).lk rl b') s' := by
  have g := h.ntM (p := [.n (.lvl 0), .t .colon, .a .ifExpr]) (by cases (hd tl).1 <;> rfl)
  obtain ⟨c, rl, e, su, hf', g⟩ := g.exL hW (by decide) hf
  obtain ⟨m, rl, rfl, g2⟩ := g.colon
  have g := (g2.pushU (b' := Buf.add W (.branchFalse 0) _) rfl).ntU
  exact ⟨c, m, rl, e, suf1.trans su, hf'.suffix suf1, _, _, g⟩

theorem snd_elifs (ih : SndS W conv n) (hW : 2 ≤ W) {stk s' tl b} {s : PSt}
    (h : Go W conv (n + 1) (.n .elifStats :: stk) (s.lk tl b) s') (hf : Fine W tl) : ∃ p, Ev fun k => Parse.elifs k tl = some p := by
  by_cases hc : ∃ m u, tl = (.kw .elif, m) :: u
  · obtain ⟨m, tl, rfl⟩ := hc
    have g := (h.nt' rfl).tkc
    replace g : ∃ v b', Go W conv n (.n .ifExpr :: .n .suite :: .n .elifStats :: .a .elifEnd :: stk) ((s.with (v :: s.vals)).lk tl b') s' :=
      ⟨_, _, (g.pushU (b' := Buf.addForward W fwIf (Buf.add W (.line _) b)) rfl).ntU⟩
    obtain ⟨v, b', g⟩ := g
    obtain ⟨c, m', rl, e1, su, hf', v', b2, g⟩ := g.ifExpr hW (hf.suffix suf1)
    obtain ⟨x, ul, e2, su2, hf2, m2, g⟩ := ih.suite' hW g hf'
    obtain ⟨⟨r, wl⟩, e3⟩ := ih.elifs g.nte hf2
    refine ⟨(.elif m c x r, wl), ((e1.and e2).and e3).step fun k hk => ?_⟩
    rw [Parse.elifs, hk.1.1]
    show (Parse.suite k _ >>= _) = _
    rw [hk.1.2]
    show (Parse.elifs k _ >>= _) = _
    rw [hk.2]; rfl
  by_cases hc2 : ∃ m u, tl = (.kw .else_, m) :: u
  · obtain ⟨m, tl, rfl⟩ := hc2
    have g := (h.nt' rfl).tkc
    obtain ⟨t, tl, rfl, ht, g⟩ := g.tkU
    obtain ⟨t, m'⟩ := t
    obtain rfl : t = .colon := by simpa [Tm.is] using ht
    have g := (g.pushU (b' := Buf.addForward W fwIf b) rfl).ntU
    obtain ⟨⟨x, rl⟩, e⟩ := ih.suite g ((hf.suffix suf1).suffix suf1)
    exact ⟨_, e.step fun k hk => by rw [Parse.elifs, hk]; rfl⟩
  · refine ⟨(.none, tl), Ev.of fun k => ?_⟩
    rw [Parse.elifs.eq_def]
    split
    · cases ‹k + 1 = 0›
    · exact (hc ⟨_, _, rfl⟩).elim
    · exact (hc2 ⟨_, _, rfl⟩).elim
    · exact (hc2 ⟨_, _, rfl⟩).elim
    · rfl

/-- The end of both loops. -/
theorem SndS.loop (ih : SndS W conv n) (hW : 2 ≤ W) {stk s' tl b} {s : PSt} {q : List Sym} (hq : q = [] ∨ q = [.a .forEnd])
    (h : Go W conv n (.n .suite :: .a .loopEnd :: (q ++ .n .whileElse :: stk)) (s.lk tl b) s') (hf : Fine W tl) :
    ∃ x rl y r, (Ev fun k => Parse.suite k tl = some (x, rl)) ∧ (Ev fun k => Parse.whileElse k rl = some (y, r)) := by
  obtain ⟨x, ul, e2, su2, hf2, m2, g⟩ := ih.suite' hW h hf
  have g := g.aE _ _ (loopEnd_ok (z := room W _) (Nat.le_refl _)) (Nat.le_refl _) (Nat.le_refl _)
  replace g : ∃ s1 : PSt, ∃ b1, Go W conv n (.n .whileElse :: stk) (s1.en ul m2 b1) s' := by
    rcases hq with rfl | rfl
    · exact ⟨_, _, g⟩
    · exact ⟨_, _, g.actE { s.with _ with fd := s.fd - 1 } _ rfl⟩
  obtain ⟨s1, b1, g⟩ := g
  obtain ⟨⟨y, r⟩, e3⟩ := ih.whileElse g.nte hf2
  exact ⟨x, ul, y, r, e2, e3⟩

theorem stat_forIn {k m x m1 m2} {tl : List LT} (hg : ¬ ∃ m u, tl = (T.kw .range, m) :: u) :
    Parse.stat (k + 1) ((.kw .for_, m) :: (.name x, m1) :: (.kw .in_, m2) :: tl) = (exprL k 0 tl >>= fun p => match p.2 with
      | (.colon, _) :: ts => do
        let (t, ts) ← suite k ts
        let (e, ts) ← whileElse k ts
        some (.seq (.line m) (.forIn x p.1 t e), ts)
      | _ => none) := by
  cases tl with
  | nil => rw [Parse.stat.eq_def]; rfl
  | cons t u =>
    obtain ⟨t, m7⟩ := t
    cases t
    case kw w =>
      cases w
      case range => exact (hg ⟨_, _, rfl⟩).elim
      all_goals rw [Parse.stat.eq_def]; rfl
    all_goals rw [Parse.stat.eq_def]; rfl

theorem snd_stat (ih : SndS W conv n) (hW : 2 ≤ W) {stk s' tl b} {s : PSt}
    (h : Go W conv (n + 1) (.n .stat :: stk) (s.lk tl b) s') (hf : Fine W tl) : ∃ p, Ev fun k => Parse.stat k tl = some p := by
  by_cases hc : ∃ m u, tl = (.nl, m) :: u
  · obtain ⟨m, tl, rfl⟩ := hc
    exact ⟨_, Ev.of fun k => by rw [Parse.stat]⟩
  by_cases hi : ∃ m u, tl = (.kw .if_, m) :: u
  · obtain ⟨m, tl, rfl⟩ := hi
    have g := ((((h.nt' rfl).actL s _ rfl).ntM rfl).ntM (p := [.t (.kw .if_), .n .ifExpr, .n .suite, .n .elifStats, .a .ifEnd]) rfl).tkc.ntU
    obtain ⟨c, m', rl, e1, su, hf', v', b2, g⟩ := g.ifExpr hW (hf.suffix suf1)
    obtain ⟨x, ul, e2, su2, hf2, m2, g⟩ := ih.suite' hW g hf'
    obtain ⟨⟨r, wl⟩, e3⟩ := ih.elifs g.nte hf2
    refine ⟨(.seq (.line m) (.ifs c x r), wl), ((e1.and e2).and e3).step fun k hk => ?_⟩
    rw [Parse.stat, hk.1.1]
    show (Parse.suite k _ >>= _) = _
    rw [hk.1.2]
    show (Parse.elifs k _ >>= _) = _
    rw [hk.2]; rfl
  by_cases hw : ∃ m u, tl = (.kw .while_, m) :: u
  · obtain ⟨m, tl, rfl⟩ := hw
    have g := ((((h.nt' rfl).actL s _ rfl).ntM rfl).ntM (p := [.a .pushCur, .t (.kw .while_), .n (.lvl 0), .t .colon, .a .whileTest, .n .suite, .a .loopEnd, .n .whileElse, .a .patchLoop]) rfl)
    have g := (g.pushL rfl).tkc.ntU
    obtain ⟨c, rl, e1, su, hf', g⟩ := g.exL hW (by decide) (hf.suffix suf1)
    obtain ⟨m', rl, rfl, g2⟩ := g.colon
    have g := (g2.pushU (b' := Buf.add W (.branchFalse 0) _) rfl).ntU
    obtain ⟨x, ul, y, r, e2, e3⟩ := ih.loop hW (q := []) (.inl rfl) g (hf'.suffix suf1)
    refine ⟨(.seq (.line m) (.whil c x y), r), ((e1.and e2).and e3).step fun k hk => ?_⟩
    rw [Parse.stat, hk.1.1]
    show (Parse.suite k _ >>= _) = _
    rw [hk.1.2]
    show (Parse.whileElse k _ >>= _) = _
    rw [hk.2]; rfl
  by_cases hr : ∃ m u, tl = (.kw .for_, m) :: u
  · obtain ⟨m, tl, rfl⟩ := hr
    have g := ((((h.nt' rfl).actL s _ rfl).ntM rfl).ntM (p := [.t (.kw .for_), .t .name, .a .forName, .t (.kw .in_), .n .forParams, .n .suite, .a .loopEnd, .a .forEnd, .n .whileElse, .a .patchLoop]) rfl).tkc
    obtain ⟨t, tl, rfl, ht, g⟩ := g.tkU
    obtain ⟨t, m1⟩ := t
    obtain ⟨x, rfl⟩ := is_name ht
    have g := g.pushU (v := x) rfl
    obtain ⟨t, tl, rfl, ht, g⟩ := g.tkU
    obtain ⟨t, m2⟩ := t
    obtain rfl : t = .kw .in_ := by simpa [Tm.is] using ht
    have hf3 := ((hf.suffix suf1).suffix suf1).suffix suf1
    by_cases hg : ∃ m u, tl = (.kw .range, m) :: u
    · obtain ⟨m3, tl, rfl⟩ := hg
      have g := (g.ntU.ntM (p := [.t (.kw .range), .t .op, .n .optActuals, .t .cp, .t .colon, .a .rangeEnd]) rfl).tkc
      obtain ⟨t, tl, rfl, ht, g⟩ := g.tkU
      obtain ⟨t, m4⟩ := t
      obtain rfl : t = .op := by simpa [Tm.is] using ht
      have hf5 := (hf3.suffix suf1).suffix suf1
      obtain ⟨es, ns, rl, e1, su, hf', g⟩ := g.ntU.actsL hW hf5
      obtain ⟨t, rl, rfl, ht, g⟩ := g.tk
      obtain ⟨t, m5⟩ := t
      obtain rfl : t = .cp := by simpa [Tm.is] using ht
      obtain ⟨t, rl, rfl, ht, g⟩ := g.tkU
      obtain ⟨t, m6⟩ := t
      obtain rfl : t = .colon := by simpa [Tm.is] using ht
      by_cases hl : es.length + 256 * ns.length ≥ 256
      · exact (g.bad (if_pos hl)).elim
      · have g := g.aE _ _ (rangeEnd_ok (s := s) (m := some _) (z := ⟨W, s.vals.length + 4, s.formals.length + 1⟩) (by show _ ≤ _ + 4; omega) (by omega)) (Nat.le_refl _) (Nat.le_refl _)
        obtain ⟨y, ul, w, r, e2, e3⟩ := ih.loop hW (q := [.a .forEnd]) (.inr rfl) g.nte ((hf'.suffix suf1).suffix suf1)
        refine ⟨(.seq (.line m) (.forRange x es y w), r), ((e1.and e2).and e3).step fun k hk => ?_⟩
        rw [Parse.stat, hk.1.1]
        refine (if_neg hl).trans ?_
        rw [hk.1.2]
        show (Parse.whileElse k _ >>= _) = _
        rw [hk.2]; rfl
    · have g := g.ntU.ntM (prod_forParams (hdL_ne (fun n u e => hg ⟨_, _, e⟩) nofun))
      obtain ⟨c, rl, e1, su, hf', g⟩ := g.exL hW (by decide) hf3
      obtain ⟨m', rl, rfl, g2⟩ := g.colon
      have g := g2.aE _ _ (inEnd_ok (s := s) (m := some _) (z := ⟨W, s.vals.length + 3, s.formals.length + 1⟩) (by show _ ≤ _ + 3; omega) _ rfl) (Nat.le_refl _) (Nat.le_refl _)
      obtain ⟨y, ul, w, r, e2, e3⟩ := ih.loop hW (q := [.a .forEnd]) (.inr rfl) g.nte (hf'.suffix suf1)
      refine ⟨(.seq (.line m) (.forIn x c y w), r), ((e1.and e2).and e3).step fun k hk => ?_⟩
      rw [stat_forIn hg, hk.1.1]
      show (Parse.suite k _ >>= _) = _
      rw [hk.1.2]
      show (Parse.whileElse k _ >>= _) = _
      rw [hk.2]; rfl
  · have g := h.nt' (prod_stat (hdL_ne (fun n u e => hc ⟨_, _, e⟩) nofun) (hdL_ne (fun n u e => hi ⟨_, _, e⟩) nofun)
      (hdL_ne (fun n u e => hw ⟨_, _, e⟩) nofun) (hdL_ne (fun n u e => hr ⟨_, _, e⟩) nofun))
    obtain ⟨p, e⟩ := snd_simple hW g hf
    refine ⟨p, e.step fun k hk => ?_⟩
    rw [Parse.stat.eq_def]
    split
    · cases ‹k + 1 = 0›
    · exact (hc ⟨_, _, rfl⟩).elim
    · exact (hi ⟨_, _, rfl⟩).elim
    · exact (hw ⟨_, _, rfl⟩).elim
    · exact (hr ⟨_, _, rfl⟩).elim
    · exact (hr ⟨_, _, rfl⟩).elim
    · exact (hr ⟨_, _, rfl⟩).elim
    · cases ‹k + 1 = _›
      exact hk

theorem snd_stats (ih : SndS W conv n) (hW : 2 ≤ W) {stk s' tl b} {s : PSt}
    (h : Go W conv (n + 1) (.n .stat :: .n .optStats :: stk) (s.lk tl b) s') (hf : Fine W tl) :
    ∃ p, Ev fun k => Parse.stats k tl = some p := by
  obtain ⟨⟨x, rl⟩, e⟩ := snd_stat ih hW h hf
  obtain ⟨su, hf', m, g⟩ := h.statR hW hf e
  by_cases hs : startsStat rl = true
  · obtain ⟨⟨r, ul⟩, e2⟩ := ih.stats (g.nte.nt' (prod_optStats.trans (if_pos hs))) hf'
    refine ⟨(.seq x r, ul), (e.and e2).step fun k hk => ?_⟩
    rw [Parse.stats, hk.1]
    refine (if_pos hs).trans ?_
    rw [hk.2]; rfl
  · refine ⟨(x, rl), e.step fun k hk => ?_⟩
    rw [Parse.stats, hk]
    exact if_neg hs

theorem sndS (hW : 2 ≤ W) (n : Nat) : SndS W conv n := by
  induction n with
  | zero => exact ⟨fun h => h.nt0.elim, fun h => h.nt0.elim, fun h => h.nt0.elim, fun h => h.nt0.elim, fun h => h.nt0.elim⟩
  | succ n ih => exact ⟨snd_stat ih hW, snd_elifs ih hW, snd_whileElse ih, snd_suite ih hW, snd_stats ih hW⟩

end Snek.Pda
