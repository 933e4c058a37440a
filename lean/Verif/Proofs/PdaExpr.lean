import Verif.Proofs.PdaBase
import Verif.Proofs.Bytecode
/-! The table-driven parser on expressions. -/
namespace Snek.Pda
open Snek.Vm Snek.Lang Snek.Lex Snek.Parse Spec.Syntax

variable {z : Sizes} {conv : BitVec 32 → BitVec 8}

/-- Identifiers fit their operand. -/
def Fine (W : Nat) (tl : List LT) : Prop := ∀ t ∈ tl, ∀ x, t.1 = .name x → x < 256 ^ W

theorem Fine.suffix {W} {tl rl : List LT} (h : Fine W tl) (s : rl <:+ tl) : Fine W rl := fun t ht => h t (s.mem ht)

/-- Reading from `tl` stops before the tokens `r`. -/
def Upto (tl : List LT) (r : List T) (P : List LT → Prop) : Prop := ∃ rl, rl.map Prod.fst = r ∧ rl <:+ tl ∧ P rl

def Ok_lvl (z : Sizes) (conv : BitVec 32 → BitVec 8) (k : Nat) : Prop :=
  ∀ l x r tl, l ≤ 12 → Parse.lvl k l (tl.map Prod.fst) = some (x, r) → Fine z.W tl → Upto tl r fun rl =>
    ∀ (s : PSt) stk b, s.vals.length + needE x ≤ z.V → Reach z conv (.n (.lvl l) :: stk) (s.lk tl b) stk (s.lk rl (emitE z.W conv x b))

def Ok_lvl13 (z : Sizes) (conv : BitVec 32 → BitVec 8) (k : Nat) : Prop :=
  ∀ x r tl, Parse.lvl k 13 (tl.map Prod.fst) = some (x, r) → Fine z.W tl → Upto tl r fun rl =>
    ∀ (s : PSt) y stk b, s.vals.length + needE x ≤ z.V →
      Reach z conv (.n (.lvl 13) :: .n y :: stk) (s.lk tl b) (.n y :: stk) (s.lk rl (emitE z.W conv x b))

def Ok_prim (z : Sizes) (conv : BitVec 32 → BitVec 8) (k : Nat) : Prop :=
  ∀ x r tl, Parse.prim k (tl.map Prod.fst) = some (x, r) → Fine z.W tl → Upto tl r fun rl =>
    ∀ (s : PSt) y stk b, s.vals.length + needE x ≤ z.V →
      Reach z conv (.n (.lvl 13) :: .n y :: stk) (s.lk tl b) (.n y :: stk) (s.lk rl (emitE z.W conv x b))

def Ok_tail (z : Sizes) (conv : BitVec 32 → BitVec 8) (k : Nat) : Prop :=
  ∀ l a x r tl, l ≤ 12 → l ≠ 3 → Parse.tail k l a (tl.map Prod.fst) = some (x, r) → Fine z.W tl → Upto tl r fun rl =>
    needE a ≤ needE x ∧ ∀ (s : PSt) stk b, s.vals.length + needE x ≤ z.V →
      Reach z conv (.n (.tail l) :: stk) (s.lk tl (emitE z.W conv a b)) stk (s.lk rl (emitE z.W conv x b))

def Ok_tail3 (z : Sizes) (conv : BitVec 32 → BitVec 8) (k : Nat) : Prop :=
  ∀ a x r tl, Parse.tail k 3 a (tl.map Prod.fst) = some (x, r) → Fine z.W tl → Upto tl r fun rl =>
    needE a ≤ needE x ∧ ∀ (s : PSt) stk b, s.vals.length + needE x ≤ z.V →
      Reach z conv (.n (.tail 3) :: .a .cmpEnd :: stk) ((s.with (0 :: s.vals)).lk tl (emitE z.W conv a b)) stk
        (s.lk rl (emitE z.W conv x b))

def Ok_chain (z : Sizes) (conv : BitVec 32 → BitVec 8) (k : Nat) : Prop :=
  ∀ c r tl, Parse.chain k (tl.map Prod.fst) = some (c, r) → Fine z.W tl → Upto tl r fun rl =>
    ∀ (s : PSt) stk b off, s.vals.length + needC c ≤ z.V →
      Reach z conv (.n (.tail 3) :: .a .cmpEnd :: stk) ((s.with (off :: s.vals)).lk tl b) stk (s.lk rl (emitChain z.W conv off c b))

def Ok_arrayIndex (z : Sizes) (conv : BitVec 32 → BitVec 8) (k : Nat) : Prop :=
  ∀ a x r tl, Parse.arrayIndex k a (tl.map Prod.fst) = some (x, r) → Fine z.W tl → Upto tl r fun rl =>
    needE a ≤ needE x ∧ ∀ (s : PSt) stk b, s.vals.length + needE x ≤ z.V → ∃ vs b',
      Reach z conv (.n .arrayIndex :: stk) (s.lk tl (emitE z.W conv a b).pushPrev) stk ((s.with vs).lk rl b') ∧
      ∀ u t, act z conv .index ((s.with vs).ul u t b') = .ok (s.ul u t (emitE z.W conv x b))

def Ok_slice (z : Sizes) (conv : BitVec 32 → BitVec 8) (k : Nat) : Prop :=
  ∀ a o x r tl, Parse.slice k a o (tl.map Prod.fst) = some (x, r) → Fine z.W tl → Upto tl r fun rl =>
    needE a ≤ needE x ∧ needO o ≤ needE x ∧ ∀ (s : PSt) stk b, s.vals.length + needE x ≤ z.V → ∃ vs b',
      Reach z conv (.n .optExpr :: .n .sliceP :: .a .push1 :: stk)
        ((s.with (o.isSome.toNat :: s.vals)).lk tl (emitOpt1 z.W conv o (emitE z.W conv a b).pushPrev)) stk ((s.with vs).lk rl b') ∧
      ∀ u t, act z conv .index ((s.with vs).ul u t b') = .ok (s.ul u t (emitE z.W conv x b))

def Ok_optExpr (z : Sizes) (conv : BitVec 32 → BitVec 8) (k : Nat) : Prop :=
  ∀ o r tl, Parse.optExpr k (tl.map Prod.fst) = some (o, r) → Fine z.W tl → Upto tl r fun rl =>
    ∀ (s : PSt) stk b, s.vals.length + (1 + needO o) ≤ z.V →
      Reach z conv (.n .optExpr :: stk) (s.lk tl b) stk ((s.with (o.isSome.toNat :: s.vals)).lk rl (emitOpt2 z.W conv o b))

def Ok_optActuals (z : Sizes) (conv : BitVec 32 → BitVec 8) (k : Nat) : Prop :=
  ∀ es ns r tl, Parse.optActuals k (tl.map Prod.fst) = some (es, ns, r) → Fine z.W tl → Upto tl r fun rl =>
    ∀ (s : PSt) stk b, s.vals.length + (1 + max (needL es) (needN ns)) ≤ z.V →
      Reach z conv (.n .optActuals :: stk) (s.lk tl b) stk
        ((s.with ((es.length + 256 * ns.length) :: s.vals)).lk rl (emitNamed z.W conv ns (emitArgs z.W conv es b)))

def Ok_actuals (z : Sizes) (conv : BitVec 32 → BitVec 8) (k : Nat) : Prop :=
  ∀ n nm es ns r tl, Parse.actuals k n nm (tl.map Prod.fst) = some (es, ns, r) → Fine z.W tl → Upto tl r fun rl =>
    ∀ (s : PSt) stk b (c : Nat), (nm = false → c = n) → s.vals.length + (1 + max (needL es) (needN ns)) ≤ z.V →
      Reach z conv (.n (.lvl 0) :: .n .actualP :: .n .actualsP :: stk) ((s.with (c :: s.vals)).lk tl b) stk
        ((s.with ((c + es.length + 256 * ns.length) :: s.vals)).lk rl (emitNamed z.W conv ns (emitArgs z.W conv es b)))

def Ok_actualsP (z : Sizes) (conv : BitVec 32 → BitVec 8) (k : Nat) : Prop :=
  ∀ n nm es ns r tl, Parse.actualsP k n nm (tl.map Prod.fst) = some (es, ns, r) → Fine z.W tl → Upto tl r fun rl =>
    ∀ (s : PSt) stk b (c : Nat), (nm = false → c = n) → s.vals.length + (1 + max (needL es) (needN ns)) ≤ z.V →
      Reach z conv (.n .actualsP :: stk) ((s.with (c :: s.vals)).lk tl b) stk
        ((s.with ((c + es.length + 256 * ns.length) :: s.vals)).lk rl (emitNamed z.W conv ns (emitArgs z.W conv es b)))

def Ok_optEnts (z : Sizes) (conv : BitVec 32 → BitVec 8) (k : Nat) : Prop :=
  ∀ es r tl, Parse.optEnts k (tl.map Prod.fst) = some (es, r) → Fine z.W tl → Upto tl r fun rl =>
    ∀ y (s : PSt) stk b (c : Nat), y = .optEnts ∨ y = .entsEnd → s.vals.length + (1 + needL es) ≤ z.V →
      Reach z conv (.n y :: stk) ((s.with (c :: s.vals)).lk tl b) stk
        ((s.with ((c + es.length) :: s.vals)).lk rl (emitArgs z.W conv es b))

def Ok_ents (z : Sizes) (conv : BitVec 32 → BitVec 8) (k : Nat) : Prop :=
  ∀ es r tl, Parse.ents k (tl.map Prod.fst) = some (es, r) → Fine z.W tl → Upto tl r fun rl =>
    ∀ (s : PSt) stk b (c : Nat), s.vals.length + (1 + needL es) ≤ z.V →
      Reach z conv (.n .ent :: .n .entsP :: stk) ((s.with (c :: s.vals)).lk tl b) stk
        ((s.with ((c + es.length) :: s.vals)).lk rl (emitArgs z.W conv es b))

/-- Every construct is read as the recursive functions read it. -/
structure OkE (z : Sizes) (conv : BitVec 32 → BitVec 8) (k : Nat) : Prop where
  lvl : Ok_lvl z conv k
  lvl13 : Ok_lvl13 z conv k
  prim : Ok_prim z conv k
  tail : Ok_tail z conv k
  tail3 : Ok_tail3 z conv k
  chain : Ok_chain z conv k
  arrayIndex : Ok_arrayIndex z conv k
  slice : Ok_slice z conv k
  optExpr : Ok_optExpr z conv k
  optActuals : Ok_optActuals z conv k
  actuals : Ok_actuals z conv k
  actualsP : Ok_actualsP z conv k
  optEnts : Ok_optEnts z conv k
  ents : Ok_ents z conv k

theorem starts_hd {tl : List LT} : startsExpr (tl.map Prod.fst) = startsE1 (hd tl).1 := by
  cases tl with
  | nil => rfl
  | cons t tl =>
    show startsExpr (t.1 :: _) = startsExpr [t.1]
    cases t.1 <;> first | rfl | (rename_i x; cases x <;> rfl)

theorem Upto.trans {tl rl : List LT} {r P Q} (s : rl <:+ tl) (h : Upto rl r P) (i : ∀ rl, P rl → Q rl) : Upto tl r Q := by
  obtain ⟨u, e, s', p⟩ := h
  exact ⟨u, e, s'.trans s, i u p⟩

theorem Upto.here {tl : List LT} {P : List LT → Prop} (p : P tl) : Upto tl (tl.map Prod.fst) P := ⟨tl, rfl, List.suffix_rfl, p⟩

theorem hd_ne {tl : List LT} {a : T} (h : ¬ ∃ u, tl.map Prod.fst = a :: u) (he : .eof ≠ a) : (hd tl).1 ≠ a := by
  cases tl with
  | nil => exact he
  | cons t tl => exact fun e => h ⟨_, by rw [List.map_cons]; exact congrArg (· :: _) e⟩

theorem suf1 {t : LT} {tl : List LT} : tl <:+ t :: tl := List.suffix_cons _ _

/-! ## Levels -/

theorem ok_unary {l} {h : T} {op x} {tl : List LT} {n} {r}
    (hx : Upto tl r fun rl => ∀ (s : PSt) stk b, s.vals.length + needE x ≤ z.V →
      Reach z conv (.n (.lvl l) :: stk) (s.lk tl b) stk (s.lk rl (emitE z.W conv x b)))
    {tm a v} (hp : prod (.lvl l) h = some [.t tm, .a a, .n (.lvl l), .a .unopSecond]) (ht : tm.is h = true)
    (ha : ∀ u b, act z conv a (PSt.ul u tl (h, n) b) = .ok ((PSt.ul u tl (h, n) b).push z v)) (hv : v = (Ins.unary op).opcode) :
    Upto ((h, n) :: tl) r fun rl => ∀ (s : PSt) stk b, s.vals.length + needE (.unary op x) ≤ z.V →
      Reach z conv (.n (.lvl l) :: stk) (s.lk ((h, n) :: tl) b) stk (s.lk rl (emitE z.W conv (.unary op x) b)) := by
  refine Upto.trans suf1 hx fun rl R s stk b hv' => ?_
  simp only [needE] at hv'
  refine .exp hp (.eat ht (.pushU (ha _ _) (show s.vals.length < _ by omega) ?_))
  refine .nt (s := s.with (v :: s.vals)) ?_
  refine (R (s.with (v :: s.vals)) _ b (by show s.vals.length + 1 + _ ≤ _; omega)).trans ?_
  exact .act rfl (by subst hv; exact .refl)

theorem ok_lvl {k} (ih : OkE z conv k) (l x r tl) (hl : l ≤ 12) (h : Parse.lvl (k+1) l (tl.map Prod.fst) = some (x, r))
    (hf : Fine z.W tl) : Upto tl r fun rl =>
    ∀ (s : PSt) stk b, s.vals.length + needE x ≤ z.V → Reach z conv (.n (.lvl l) :: stk) (s.lk tl b) stk (s.lk rl (emitE z.W conv x b)) := by
  by_cases h2 : l = 2
  · subst h2
    by_cases hn : ∃ u, tl.map Prod.fst = .kw .not :: u
    · obtain ⟨u, hu⟩ := hn
      obtain ⟨n, tl, rfl, rfl⟩ := map_cons hu
      obtain ⟨⟨e, u⟩, h1, h2⟩ := bind_some ((lvl_not k _).symm.trans h)
      cases h2
      exact ok_unary (op := .not) (ih.lvl 2 e _ tl (by decide) h1 (hf.suffix suf1)) rfl rfl (fun _ _ => rfl) rfl
    · rw [lvl_2 k _ (fun u e => hn ⟨u, e⟩)] at h
      refine Upto.trans List.suffix_rfl (ih.lvl 3 _ _ _ (by decide) h hf) fun rl R s stk b hv => .exp (r := [_]) ?_ (R s stk b hv)
      exact prod_lvl2 (hd_ne hn (by decide))
  by_cases h10 : l = 10
  · subst h10
    by_cases hn : ∃ u, tl.map Prod.fst = .lnot :: u
    · obtain ⟨u, hu⟩ := hn
      obtain ⟨n, tl, rfl, rfl⟩ := map_cons hu
      obtain ⟨⟨e, u⟩, h1, h2⟩ := bind_some ((lvl_lnot k _).symm.trans h)
      cases h2
      exact ok_unary (op := .lnot) (ih.lvl 10 e _ tl (by decide) h1 (hf.suffix suf1)) rfl rfl (fun _ _ => rfl) rfl
    by_cases hm : ∃ u, tl.map Prod.fst = .bin .minus :: u
    · obtain ⟨u, hu⟩ := hm
      obtain ⟨n, tl, rfl, rfl⟩ := map_cons hu
      obtain ⟨⟨e, u⟩, h1, h2⟩ := bind_some ((lvl_minus k _).symm.trans h)
      cases h2
      exact ok_unary (op := .uminus) (ih.lvl 10 e _ tl (by decide) h1 (hf.suffix suf1)) rfl rfl (fun _ _ => rfl) rfl
    by_cases hp : ∃ u, tl.map Prod.fst = .bin .plus :: u
    · obtain ⟨u, hu⟩ := hp
      obtain ⟨n, tl, rfl, rfl⟩ := map_cons hu
      refine Upto.trans suf1 (ih.lvl 10 x _ tl (by decide) ((lvl_plus k _).symm.trans h) (hf.suffix suf1)) fun rl R s stk b hv => ?_
      exact .exp rfl (.eat rfl (.nt (R s stk b hv)))
    · rw [lvl_10 k _ (fun u e => hn ⟨u, e⟩) (fun u e => hm ⟨u, e⟩) (fun u e => hp ⟨u, e⟩)] at h
      refine Upto.trans List.suffix_rfl (ih.lvl 11 _ _ _ (by decide) h hf) fun rl R s stk b hv => .exp (r := [_]) ?_ (R s stk b hv)
      exact prod_lvl10 (hd_ne hn (by decide)) (hd_ne hm (by decide)) (hd_ne hp (by decide))
  · rw [lvl_gen k l _ h2 h10 (by omega)] at h
    obtain ⟨⟨a, u⟩, h1, h3⟩ := bind_some h
    by_cases h12 : l = 12
    · subst h12
      obtain ⟨ul, hul, su, R⟩ := ih.lvl13 _ _ _ h1 hf
      dsimp only at hul R h3; subst hul
      refine Upto.trans su (ih.tail _ _ _ _ _ hl (by decide) h3 (hf.suffix su)) fun rl R' s stk b hv => ?_
      exact .exp rfl ((R s _ _ b (by have := R'.1; omega)).trans (R'.2 s stk b hv))
    · obtain ⟨ul, hul, su, R⟩ := ih.lvl _ _ _ _ (by omega) h1 hf
      dsimp only at hul R h3; subst hul
      by_cases hl3 : l = 3
      · subst hl3
        refine Upto.trans su (ih.tail3 _ _ _ _ h3 (hf.suffix su)) fun rl R' s stk b hv => ?_
        refine .exp rfl ((R s _ b (by have := R'.1; omega)).trans ?_)
        refine .push rfl (by have := needE_pos x; show s.vals.length < _; omega) ?_
        exact R'.2 s stk b hv
      · refine Upto.trans su (ih.tail _ _ _ _ _ hl hl3 h3 (hf.suffix su)) fun rl R' s stk b hv => ?_
        refine .exp (r := [.n (.lvl (l+1)), .n (.tail l)]) ?_ ((R s _ b (by have := R'.1; omega)).trans (R'.2 s stk b hv))
        exact prod_lvl h2 h10 (by omega) hl3 _

theorem tokOp_rel {t r} (h : relTok t = some r) : tokOp t = (relIns r).opcode := by
  cases relTok_some h <;> rfl

theorem binTok_le {l t o} (h : binTok l t = some o) : l ≤ 9 := by
  obtain ⟨_, rfl, _⟩ := binTok_some h
  cases o
  case pow => contradiction
  all_goals decide

theorem ok_tail {k} (ih : OkE z conv k) : Ok_tail z conv (k+1) := by
  intro l a x r tl hl h3 h hf
  generalize hts : tl.map Prod.fst = ts at h
  have stop : ∀ {ts' : List T}, some (a, ts') = some (x, r) → ts' = ts → prod (.tail l) (hd tl).1 = some [] → Upto tl r fun rl =>
      needE a ≤ needE x ∧ ∀ (s : PSt) stk b, s.vals.length + needE x ≤ z.V →
      Reach z conv (.n (.tail l) :: stk) (s.lk tl (emitE z.W conv a b)) stk (s.lk rl (emitE z.W conv x b)) := by
    intro ts' e e' hp
    cases e; subst e'; subst hts
    exact .here ⟨Nat.le_refl _, fun s stk b _ => .exp hp .refl⟩
  rw [Snek.Parse.tail.eq_def] at h
  split at h
  · cases h
  · cases ‹k + 1 = _›
    obtain ⟨n, tl, rfl, rfl⟩ := map_cons hts
    obtain ⟨⟨b, u⟩, h1, h2⟩ := bind_some h
    obtain ⟨ul, rfl, su, R⟩ := ih.lvl _ _ _ _ (by decide) h1 (hf.suffix suf1)
    refine Upto.trans (su.trans suf1) (ih.tail _ _ _ _ _ (by decide) (by decide) h2 (hf.suffix (su.trans suf1))) fun rl R' => ?_
    have hn := R'.1
    simp only [needE] at hn
    refine ⟨by omega, fun s stk b0 hv => ?_⟩
    refine .exp rfl (.eat rfl (.pushU rfl (by omega) (.nt ((R (s.with _) _ _ ?_).trans (.act rfl (R'.2 s stk b0 hv))))))
    show s.vals.length + 1 + _ ≤ _; omega
  · cases ‹k + 1 = _›
    obtain ⟨n, tl, rfl, rfl⟩ := map_cons hts
    obtain ⟨⟨b, u⟩, h1, h2⟩ := bind_some h
    obtain ⟨ul, rfl, su, R⟩ := ih.lvl _ _ _ _ (by decide) h1 (hf.suffix suf1)
    refine Upto.trans (su.trans suf1) (ih.tail _ _ _ _ _ (by decide) (by decide) h2 (hf.suffix (su.trans suf1))) fun rl R' => ?_
    have hn := R'.1
    simp only [needE] at hn
    refine ⟨by omega, fun s stk b0 hv => ?_⟩
    refine .exp rfl (.eat rfl (.pushU rfl (by omega) (.nt ((R (s.with _) _ _ ?_).trans (.act rfl (R'.2 s stk b0 hv))))))
    show s.vals.length + 1 + _ ≤ _; omega
  · exact absurd rfl h3
  · cases ‹k + 1 = _›
    obtain ⟨n, tl, rfl, rfl⟩ := map_cons hts
    obtain ⟨⟨b, u⟩, h1, h2⟩ := bind_some h
    cases h2
    refine Upto.trans suf1 (ih.lvl _ _ _ _ (by decide) h1 (hf.suffix suf1)) fun rl R => ?_
    refine ⟨by simp only [needE]; omega, fun s stk b0 hv => ?_⟩
    simp only [needE] at hv
    refine .exp rfl (.eat rfl (.pushU rfl (by omega) (.nt ((R (s.with _) _ _ ?_).trans (.act rfl .refl)))))
    show s.vals.length + 1 + _ ≤ _; omega
  · cases ‹k + 1 = _›
    obtain ⟨n, tl, rfl, rfl⟩ := map_cons hts
    obtain ⟨⟨b, u⟩, h1, h2⟩ := bind_some h
    obtain ⟨ul, hul, su, hn, R⟩ := ih.arrayIndex _ _ _ _ h1 (hf.suffix suf1)
    dsimp only at h2 hn R hul
    split at h2
    · obtain ⟨m, vl, rfl, rfl⟩ := map_cons hul
      have su' := (suf1.trans su).trans (suf1 (t := (.os, n)))
      refine Upto.trans su' (ih.tail _ _ _ _ _ (by decide) (by decide) h2 (hf.suffix su')) fun rl R' => ?_
      refine ⟨by omega, fun s stk b0 hv => ?_⟩
      obtain ⟨vs, b', R1, R2⟩ := R s (.t .cs :: .a .index :: .n (.tail 12) :: stk) b0 (by have := R'.1; omega)
      refine .exp rfl (.eat rfl (.actU s _ rfl (.nt (R1.trans (.eat rfl (.act (R2 _ _) (.nt (R'.2 s stk b0 hv))))))))
    · cases h2
  · cases ‹k + 1 = _›
    obtain ⟨n, tl, rfl, rfl⟩ := map_cons hts
    obtain ⟨⟨es, ns, u⟩, h1, h2⟩ := bind_some h
    obtain ⟨ul, hul, su, R⟩ := ih.optActuals _ _ _ _ h1 (hf.suffix suf1)
    dsimp only at h2 R hul
    split at h2
    · obtain ⟨m, vl, rfl, rfl⟩ := map_cons hul
      have su' := (suf1.trans su).trans (suf1 (t := (.op, n)))
      refine Upto.trans su' (ih.tail _ _ _ _ _ (by decide) (by decide) h2 (hf.suffix su')) fun rl R' => ?_
      have hn := R'.1
      simp only [needE] at hn
      refine ⟨by omega, fun s stk b0 hv => ?_⟩
      refine .exp rfl (.eat rfl (.actU s _ rfl (.nt ((R s _ _ ?_).trans (.eat rfl (.actU s _ rfl (.nt (R'.2 s stk b0 hv))))))))
      omega
    · cases h2
  · cases ‹k + 1 = _›
    rename_i c0 c1 c3 c11 c12 c12'
    obtain ⟨n, tl, rfl, rfl⟩ := map_cons hts
    split at h
    · rename_i o hb
      obtain ⟨⟨b, u⟩, h1, h2⟩ := bind_some h
      have hl9 := binTok_le hb
      obtain ⟨ul, rfl, su, R⟩ := ih.lvl _ _ _ _ (by omega) h1 (hf.suffix suf1)
      refine Upto.trans (su.trans suf1) (ih.tail _ _ _ _ _ hl h3 h2 (hf.suffix (su.trans suf1))) fun rl R' => ?_
      have hn := R'.1
      simp only [needE] at hn
      refine ⟨by omega, fun s stk b0 hv => ?_⟩
      obtain ⟨rfl, _, _⟩ := binTok_some hb
      refine .exp (prod_tail_bin hb) (.eat (by show (binTok _ _).isSome = true; rw [hb]; rfl) (.pushU rfl (by omega) (.nt ((R (s.with _) _ _ ?_).trans (.act rfl (R'.2 s stk b0 hv))))))
      show s.vals.length + 1 + _ ≤ _; omega
    · exact stop h rfl (prod_tail_stop ‹_› (by simpa [hd] using c0) (by simpa [hd] using c1) h3 (by simpa [hd] using c11) (fun e => ⟨by simpa [hd, e] using c12, by simpa [hd, e] using c12'⟩))
  · cases tl with
    | cons _ _ => cases hts
    | nil => 
      refine stop h rfl (prod_tail_stop ?_ (fun _ => nofun) (fun _ => nofun) h3 (fun _ => nofun) (fun _ => ⟨nofun, nofun⟩))
      rfl

/-! ## Comparisons -/

theorem prod_tail3_stop {t} (h : relTok t = none) : prod (.tail 3) t = some [] := by
  show (if (relTok t).isSome then _ else _) = _
  rw [h]; rfl

theorem prod_tail3 {t r} (h : relTok t = some r) :
    prod (.tail 3) t = some [.t .rel, .a .cmpLink, .n (.lvl 4), .a .binopSecond, .n (.tail 3)] := by
  show (if (relTok t).isSome then _ else _) = _
  rw [h]; rfl

theorem cmp_end {s : PSt} {off tl stk b} :
    Reach z conv (.a .cmpEnd :: stk) ((s.with (off :: s.vals)).lk tl b) stk (s.lk tl (emitChain z.W conv off .nil b)) := by
  by_cases h : off = 0
  · subst h; exact .actL s b rfl .refl
  · refine .actL s _ ?_ .refl
    show ARes.ok (if off ≠ 0 then _ else _) = _
    simp only [emitChain]
    rw [if_pos h, if_pos h]
    rfl

theorem cmp_link0 {s : PSt} {ts b r} {t : LT} (hr : relTok t.1 = some r) :
    act z conv .cmpLink ((s.with (0 :: s.vals)).ul ts t b)
      = .ok (((s.with (b.prev :: s.vals)).ul ts t b.pushPrev).push z (relIns r).opcode) := by
  rw [← tokOp_rel hr]; rfl

theorem cmp_link {s : PSt} {ts b r off} {t : LT} (hr : relTok t.1 = some r) (h : ¬ off = 0) :
    act z conv .cmpLink ((s.with (off :: s.vals)).ul ts t b)
      = .ok (((s.with (off :: s.vals)).ul ts t
          (b.deletePrev.addForwardOp z.W fwCmp ((b.bytes[b.prev]?.getD 0).toNat + 6)).pushPrev).push z (relIns r).opcode) := by
  rw [← tokOp_rel hr]
  simp only [act, PSt.with, PSt.ul]
  rw [if_pos h]; rfl

theorem ok_chain {k} (ih : OkE z conv k) : Ok_chain z conv (k+1) := by
  intro c r tl h hf
  generalize hts : tl.map Prod.fst = ts at h
  rw [Snek.Parse.chain.eq_def] at h
  split at h
  · cases h
  · cases ‹k + 1 = _›
    obtain ⟨n, tl, rfl, rfl⟩ := map_cons hts
    split at h
    · rename_i o hr
      obtain ⟨⟨e, u⟩, h1, h2⟩ := bind_some h
      obtain ⟨⟨c, u'⟩, h3, h4⟩ := bind_some h2
      cases h4
      obtain ⟨ul, rfl, su, R⟩ := ih.lvl _ _ _ _ (by decide) h1 (hf.suffix suf1)
      refine Upto.trans (su.trans suf1) (ih.chain _ _ _ h3 (hf.suffix (su.trans suf1))) fun rl R' s stk b off hv => ?_
      simp only [needC] at hv
      refine .exp (prod_tail3 hr) (.eat (by show (relTok _).isSome = true; rw [hr]; rfl) ?_)
      by_cases h0 : off = 0
      · subst h0
        refine .act (by rw [cmp_link0 hr, push_withU (by show s.vals.length + 1 < z.V; omega)]) ?_
        refine .nt (s := s.with ((relIns o).opcode :: b.prev :: s.vals)) ((R _ _ _ (by show s.vals.length + 1 + 1 + _ ≤ _; omega)).trans ?_)
        refine .actL (s.with (b.prev :: s.vals)) _ rfl ?_
        exact R' s stk _ b.prev (by omega)
      · refine .act (by rw [cmp_link hr h0, push_withU (by show s.vals.length + 1 < z.V; omega)]) ?_
        refine .nt (s := s.with ((relIns o).opcode :: off :: s.vals)) ((R _ _ _ (by show s.vals.length + 1 + 1 + _ ≤ _; omega)).trans ?_)
        refine .actL (s.with (off :: s.vals)) _ rfl ?_
        simp only [emitChain]
        rw [if_pos h0]
        exact R' s stk _ off (by omega)
    · cases h
      refine .here fun s stk b off hv => .exp (prod_tail3_stop ‹_›) cmp_end
  · cases h
    cases tl with
    | cons _ _ => cases hts
    | nil => exact .here fun s stk b off hv => .exp (prod_tail3_stop rfl) cmp_end

theorem ok_tail3 {k} (h0 : Ok_chain z conv (k+1)) : Ok_tail3 z conv (k+1) := by
  intro a x r tl h hf
  generalize hts : tl.map Prod.fst = ts at h
  have stop : ∀ {ts' : List T}, some (a, ts') = some (x, r) → ts' = ts → relTok (hd tl).1 = none → Upto tl r fun rl =>
      needE a ≤ needE x ∧ ∀ (s : PSt) stk b, s.vals.length + needE x ≤ z.V →
      Reach z conv (.n (.tail 3) :: .a .cmpEnd :: stk) ((s.with (0 :: s.vals)).lk tl (emitE z.W conv a b)) stk
        (s.lk rl (emitE z.W conv x b)) := by
    intro ts' e e' hp
    cases e; subst e'; subst hts
    exact .here ⟨Nat.le_refl _, fun s stk b _ => .exp (prod_tail3_stop hp) (cmp_end (off := 0))⟩
  rw [Snek.Parse.tail.eq_def] at h
  split at h <;> first | contradiction | skip
  · cases ‹k + 1 = _›
    obtain ⟨n, tl, rfl, rfl⟩ := map_cons hts
    split at h
    · rename_i o hr
      obtain ⟨⟨e, u⟩, h1, h2⟩ := bind_some h
      obtain ⟨⟨c, u'⟩, h3, h4⟩ := bind_some h2
      cases h4
      have hc := h0 (.cons o e c) r ((_, n) :: tl) (by
        rw [List.map_cons, Parse.chain, hr]
        dsimp only
        rw [h1]; show (Parse.chain k u >>= _) = _; rw [h3]; rfl) hf
      refine Upto.trans List.suffix_rfl hc fun rl R => ?_
      refine ⟨by simp only [needE]; omega, fun s stk b hv => ?_⟩
      simp only [needE] at hv
      exact R s stk (emitE z.W conv _ b) 0 (by simp only [needC]; omega)
    · exact stop h rfl ‹_›
  · cases tl with
    | cons _ _ => cases hts
    | nil => exact stop h rfl rfl

/-! ## Indices and slices -/

theorem hd_cases {tl : List LT} {a : T} (he : .eof ≠ a) : (∃ n u, tl = (a, n) :: u) ∨ (hd tl).1 ≠ a ∧ ∀ u, tl.map Prod.fst ≠ a :: u := by
  by_cases h : ∃ u, tl.map Prod.fst = a :: u
  · obtain ⟨u, hu⟩ := h
    obtain ⟨n, v, rfl, _⟩ := map_cons hu
    exact .inl ⟨n, v, rfl⟩
  · exact .inr ⟨hd_ne h he, fun u hu => h ⟨u, hu⟩⟩

theorem prod_optExpr {tl : List LT} : prod .optExpr (hd tl).1 =
    if startsExpr (tl.map Prod.fst) then some [.a .optExpr, .n (.lvl 0)] else some [.a .push0] := by rw [starts_hd]; rfl
theorem prod_arrayIndex {tl : List LT} : prod .arrayIndex (hd tl).1 =
    if startsExpr (tl.map Prod.fst) then some [.n (.lvl 0), .n .optSlice] else some [.a .push0, .n .slice] := by rw [starts_hd]; rfl
theorem prod_sliceP {t : T} (h : t ≠ .colon) : prod .sliceP t = some [.a .push0] := by
  cases t
  case colon => contradiction
  all_goals rfl
theorem prod_optSlice {t : T} (h : t ≠ .colon) : prod .optSlice t = some [.a .push0] := by
  cases t
  case colon => contradiction
  all_goals rfl

theorem ok_optExpr {k} (ih : OkE z conv k) : Ok_optExpr z conv (k+1) := by
  intro o r tl h hf
  rw [Snek.Parse.optExpr.eq_def] at h
  dsimp only at h
  split at h
  · rename_i hs
    obtain ⟨⟨e, u⟩, h1, h2⟩ := bind_some h
    cases h2
    refine Upto.trans List.suffix_rfl (ih.lvl _ _ _ _ (by decide) h1 hf) fun rl R s stk b hv => ?_
    simp only [needO] at hv
    refine .exp (prod_optExpr.trans (if_pos hs)) (.pushL (v := 1) (b' := b.pushPrev) ?_ (by omega) (R (s.with (1 :: s.vals)) stk _ ?_))
    · exact congrArg ARes.ok push_code
    · show s.vals.length + 1 + _ ≤ _; omega
  · rename_i hs
    cases h
    exact .here fun s stk b hv => .exp (prod_optExpr.trans (if_neg hs)) (.pushL (v := 0) rfl (by omega) .refl)

theorem needO_pos (o) : 1 ≤ needO o := by
  cases o with
  | none => exact Nat.le_refl _
  | some e => exact needE_pos e

theorem index_slice {s : PSt} {o e d : OptE} {a u t b} :
    act z conv .index ((s.with (1 :: d.isSome.toNat :: e.isSome.toNat :: o.isSome.toNat :: s.vals)).ul u t
      (emitOpt2 z.W conv d (emitOpt2 z.W conv e (emitOpt1 z.W conv o (emitE z.W conv a b).pushPrev))))
    = .ok (s.ul u t (emitE z.W conv (.slice a o e d) b)) := by
  have : sliceFlags o e d = UInt8.ofNat (o.isSome.toNat * 1 ||| e.isSome.toNat * 2 ||| d.isSome.toNat * 4) := by
    unfold sliceFlags
    cases o.isSome <;> cases e.isSome <;> cases d.isSome <;> rfl
  simp only [emitE]
  rw [this]; rfl

theorem ok_slice {k} (ih : OkE z conv k) : Ok_slice z conv (k+1) := by
  intro a o x r tl h hf
  rw [Snek.Parse.slice.eq_def] at h
  obtain ⟨⟨e, u⟩, h1, h2⟩ := bind_some h
  obtain ⟨ul, hul, su, R⟩ := ih.optExpr _ _ _ h1 hf
  dsimp only at hul h2 R
  subst hul
  rcases hd_cases (tl := ul) (a := .colon) nofun with ⟨n, vl, rfl⟩ | ⟨hne, hne'⟩
  · obtain ⟨⟨d, u⟩, h3, h4⟩ := bind_some h2
    cases h4
    have su' := suf1.trans su
    refine Upto.trans su' (ih.optExpr _ _ _ h3 (hf.suffix su')) fun rl R' => ?_
    refine ⟨by simp only [needE]; omega, by simp only [needE]; omega, fun s stk b hv => ⟨_, _, ?_, fun u t => index_slice⟩⟩
    simp only [needE] at hv
    have := needO_pos d
    refine (R (s.with _) _ _ (by show s.vals.length + 1 + _ ≤ _; omega)).trans (.exp rfl (.eat rfl (.nt ?_)))
    refine (R' (s.with (_ :: _ :: s.vals)) _ _ (by show s.vals.length + 1 + 1 + _ ≤ _; omega)).trans ?_
    exact .pushL (v := 1) rfl (by show s.vals.length + 1 + 1 + 1 < _; omega) .refl
  · have h2 : some (Expr.slice a o e .none, ul.map Prod.fst) = some (x, r) := by
      split at h2
      · exact absurd ‹_› (hne' _)
      · exact h2
    cases h2
    refine ⟨ul, rfl, su, by simp only [needE]; omega, by simp only [needE]; omega, fun s stk b hv => ⟨_, _, ?_, fun u t => index_slice⟩⟩
    simp only [needE, needO] at hv
    refine (R (s.with _) _ _ (by show s.vals.length + 1 + _ ≤ _; omega)).trans (.exp (prod_sliceP hne) ?_)
    refine .pushL (v := 0) rfl (by show s.vals.length + 1 + 1 < _; omega) ?_
    exact .pushL (v := 1) rfl (by show s.vals.length + 1 + 1 + 1 < _; omega) .refl

theorem ok_arrayIndex {k} (ih : OkE z conv k) : Ok_arrayIndex z conv (k+1) := by
  intro a x r tl h hf
  rw [Snek.Parse.arrayIndex.eq_def] at h
  dsimp only at h
  split at h
  · rename_i hs
    obtain ⟨⟨i, u⟩, h1, h2⟩ := bind_some h
    obtain ⟨ul, hul, su, R⟩ := ih.lvl _ _ _ _ (by decide) h1 hf
    dsimp only at hul h2 R
    subst hul
    rcases hd_cases (tl := ul) (a := .colon) nofun with ⟨n, vl, rfl⟩ | ⟨hne, hne'⟩
    · have su' := suf1.trans su
      refine Upto.trans su' (ih.slice _ _ _ _ _ h2 (hf.suffix su')) fun rl R' => ?_
      refine ⟨R'.1, fun s stk b hv => ?_⟩
      obtain ⟨vs, b', R1, R2⟩ := R'.2.2 s stk b hv
      refine ⟨vs, b', ?_, R2⟩
      have h3 := R'.2.1
      have := needE_pos x
      simp only [needO] at h3
      refine .exp (prod_arrayIndex.trans (if_pos hs)) ((R s _ _ (by omega)).trans (.exp rfl ?_))
      exact .pushL (v := 1) rfl (by omega) (.exp rfl (.eat rfl (.nt R1)))
    · have h2 : some (Expr.index a i, ul.map Prod.fst) = some (x, r) := by
        split at h2
        · exact absurd ‹_› (hne' _)
        · exact h2
      cases h2
      refine ⟨ul, rfl, su, by simp only [needE]; omega, fun s stk b hv => ⟨0 :: s.vals, _, ?_, fun u t => rfl⟩⟩
      have := needE_pos i
      simp only [needE] at hv
      refine .exp (prod_arrayIndex.trans (if_pos hs)) ((R s _ _ (by omega)).trans (.exp (prod_optSlice hne) ?_))
      exact .pushL (v := 0) rfl (by omega) .refl
  · rename_i hs
    rcases hd_cases (tl := tl) (a := .colon) nofun with ⟨n, vl, rfl⟩ | ⟨hne, hne'⟩
    · refine Upto.trans suf1 (ih.slice _ _ _ _ _ h (hf.suffix suf1)) fun rl R' => ?_
      refine ⟨R'.1, fun s stk b hv => ?_⟩
      obtain ⟨vs, b', R1, R2⟩ := R'.2.2 s stk b hv
      refine ⟨vs, b', ?_, R2⟩
      have := needE_pos x
      refine .exp (prod_arrayIndex.trans (if_neg hs)) ?_
      exact .pushL (v := 0) rfl (by omega) (.exp rfl (.eat rfl (.nt R1)))
    · split at h
      · exact absurd ‹_› (hne' _)
      · cases h

/-! ## Actuals -/

theorem prod_optActuals {tl : List LT} : prod .optActuals (hd tl).1 =
    if startsExpr (tl.map Prod.fst) then some [.n .actuals] else some [.a .push0] := by rw [starts_hd]; rfl
theorem prod_actualsEnd {tl : List LT} : prod .actualsEnd (hd tl).1 =
    if startsExpr (tl.map Prod.fst) then some [.n (.lvl 0), .n .actualP, .n .actualsP] else some [] := by rw [starts_hd]; rfl
theorem prod_actualP {t : T} (h : ∀ o, t ≠ .assign o) : prod .actualP t = some [.a .argPos] := by
  cases t
  case assign o => exact absurd rfl (h o)
  all_goals rfl
theorem prod_actualsP {t : T} (h : t ≠ .comma) : prod .actualsP t = some [] := by
  cases t
  case comma => contradiction
  all_goals rfl

theorem name_mem {c t} (w : Writes c t) : ∀ l x, c = .e l (.name x) → T.name x ∈ t := by
  induction w with
  | lift _ _ ih => intro l x h; cases h; exact ih _ _ rfl
  | name => intro l x h; cases h; exact List.mem_cons_self
  | strs w =>
    intro l x h; cases h
    cases w
  | paren _ ih => intro l x h; cases h; exact List.mem_cons_of_mem _ (List.mem_append_left _ (ih _ _ rfl))
  | pos _ ih => intro l x h; cases h; exact List.mem_cons_of_mem _ (ih _ _ rfl)
  | _ => intro l x h; cases h

theorem name_fits {k : Nat} {x r} {tl : List LT} (hf : Fine z.W tl) (h : Parse.lvl k 0 (tl.map Prod.fst) = some (.name x, r)) :
    x < 256 ^ z.W := by
  obtain ⟨t, e, w⟩ := (sound k).lvl _ _ _ _ (by decide) h
  have : T.name x ∈ tl.map Prod.fst := by rw [e]; exact List.mem_append_left _ (name_mem w _ _ rfl)
  obtain ⟨p, hp, e⟩ := List.mem_map.1 this
  exact hf p hp x e

theorem id_byte {W x} {b : Buf} : (((b.add W (.id x)).bytes[(b.add W (.id x)).prev]?).getD 0).toNat = 49 := by
  simp [Buf.add, encode, Ins.opcode]

theorem id_rd {W x} {b : Buf} (h : x < 256 ^ W) : rd (b.add W (.id x)).bytes W ((b.add W (.id x)).prev + 1) = x := by
  have := rd_at (b.bytes ++ [49]) (leBytes W x) [] W (leBytes_length _ _)
  rw [leNat_leBytes _ _ h] at this
  simpa [Buf.add, encode, Ins.opcode, Ins.operands] using this

theorem arg_name {s : PSt} {x ts t b} (h : x < 256 ^ z.W) :
    act z conv .argName (s.ul ts t (emitE z.W conv (.name x) b))
      = .ok (s.ul ts t ((b.add z.W (.id x)).deletePrev.add z.W (numIns conv (intToF x))).pushPrev) := by
  refine (if_neg (fun h => h id_byte)).trans ?_
  exact congrArg (fun i : Nat => ARes.ok (s.ul ts t ((b.add z.W (.id x)).deletePrev.add z.W (numIns conv (intToF i))).pushPrev)) (id_rd h)

theorem count1 {s : PSt} {c n ts b} (h : s.vals.length < z.V) :
    ARes.ok (((s.lk ts b).push z (c + n)).code Buf.pushPrev) = .ok ((s.with ((c + n) :: s.vals)).lk ts b.pushPrev) :=
  congrArg ARes.ok (push_code.trans (push_room (s := s.lk ts b.pushPrev) h))

theorem ok_optActuals {k} (ih : OkE z conv k) : Ok_optActuals z conv (k+1) := by
  intro es ns r tl h hf
  rw [Snek.Parse.optActuals.eq_def] at h
  dsimp only at h
  split at h
  · rename_i hs
    refine Upto.trans List.suffix_rfl (ih.actuals _ _ _ _ _ _ h hf) fun rl R s stk b hv => ?_
    refine .exp (prod_optActuals.trans (if_pos hs)) (.exp rfl (.pushL (v := 0) rfl (by omega) ?_))
    have := R s stk b 0 (fun _ => rfl) hv
    rw [Nat.zero_add] at this
    exact this
  · rename_i hs
    cases h
    exact .here fun s stk b hv => .exp (prod_optActuals.trans (if_neg hs)) (.pushL (v := 0) rfl (by omega) .refl)

theorem ok_actuals {k} (ih : OkE z conv k) : Ok_actuals z conv (k+1) := by
  intro n nm es ns r tl h hf
  rw [Snek.Parse.actuals.eq_def] at h
  obtain ⟨⟨e, u⟩, h1, h2⟩ := bind_some h
  obtain ⟨ul, hul, su, R⟩ := ih.lvl _ _ _ _ (by decide) h1 hf
  dsimp only at hul h2 R
  by_cases ha : ∃ o u, ul.map Prod.fst = .assign o :: u
  · obtain ⟨o, v, hv⟩ := ha
    obtain ⟨m, vl, rfl, rfl⟩ := map_cons hv
    subst hul
    split at h2
    case h_2 hx => exact (hx _ _ rfl).elim
    rename_i heq
    cases heq
    split at h2
    · rename_i x
      obtain ⟨⟨v, u⟩, h3, h4⟩ := bind_some h2
      obtain ⟨⟨es', ns', u'⟩, h5, h6⟩ := bind_some h4
      cases h6
      have su' := suf1.trans su
      obtain ⟨wl, hwl, sw, R1⟩ := ih.lvl _ _ _ _ (by decide) h3 (hf.suffix su')
      dsimp only at hwl h5 R1
      subst hwl
      obtain rfl := ((sound k).actualsP _ _ _ _ _ _ h5).1 rfl
      refine Upto.trans (sw.trans su') (ih.actualsP _ _ _ _ _ _ h5 (hf.suffix (sw.trans su'))) fun rl R2 s stk b c hc hv => ?_
      simp only [needL, needN] at hv
      refine (R (s.with _) _ _ (by show s.vals.length + 1 + 1 ≤ _; have := needE_pos v; omega)).trans (.exp rfl (.eat rfl ?_))
      refine .actU _ _ (arg_name (name_fits hf h1)) (.nt ((R1 (s.with _) _ _ (by show s.vals.length + 1 + _ ≤ _; omega)).trans ?_))
      refine .actL (s.with ((c + 256) :: s.vals)) _ (count1 (by omega)) ?_
      have := R2 s stk (emitE z.W conv v (((b.add z.W (.id x)).deletePrev.add z.W (numIns conv (intToF x))).pushPrev)).pushPrev
        (c + 256) nofun (by simp only [needL]; omega)
      rw [show c + 256 + Exprs.nil.length + 256 * ns'.length = c + Exprs.nil.length + 256 * (Named.cons x v ns').length by
        simp only [Named.length]; omega] at this
      exact this
    · cases h2
  · subst hul
    have h2 : (if (nm || decide (256 ≤ n)) = true then none else do
        let (es, ns, ts) ← Parse.actualsP k (n + 1) false (ul.map Prod.fst)
        some (Exprs.cons e es, ns, ts)) = some (es, ns, r) := by
      split at h2
      · exact absurd ⟨_, _, ‹_›⟩ ha
      · exact h2
    split at h2
    · cases h2
    · rename_i hc
      simp at hc
      obtain ⟨⟨es', ns', u'⟩, h5, h6⟩ := bind_some h2
      cases h6
      refine Upto.trans su (ih.actualsP _ _ _ _ _ _ h5 (hf.suffix su)) fun rl R2 s stk b c hcn hv => ?_
      obtain rfl := hcn hc.1
      simp only [needL] at hv
      refine (R (s.with _) _ _ (by show s.vals.length + 1 + _ ≤ _; omega)).trans (.exp (prod_actualP fun o e => ?_) ?_)
      · cases ul with
        | nil => cases e
        | cons t ul => exact ha ⟨o, _, by rw [List.map_cons]; exact congrArg (· :: _) e⟩
      · refine .actL (s.with ((c + 1) :: s.vals)) (emitE z.W conv e b).pushPrev ?_ ?_
        · exact (if_neg (by omega)).trans (count1 (by omega))
        have := R2 s stk (emitE z.W conv e b).pushPrev (c + 1) (fun _ => rfl) (by omega)
        rw [show c + 1 + es'.length + 256 * ns.length = c + (Exprs.cons e es').length + 256 * ns.length by
          simp only [Exprs.length]; omega] at this
        exact this

theorem ok_actualsP {k} (ih : OkE z conv k) : Ok_actualsP z conv (k+1) := by
  intro n nm es ns r tl h hf
  generalize hts : tl.map Prod.fst = ts at h
  rw [Snek.Parse.actualsP.eq_def] at h
  split at h
  · cases h
  · cases ‹k + 1 = _›
    obtain ⟨n, tl, rfl, rfl⟩ := map_cons hts
    split at h
    · rename_i hs
      refine Upto.trans suf1 (ih.actuals _ _ _ _ _ _ h (hf.suffix suf1)) fun rl R s stk b c hc hv => ?_
      exact .exp rfl (.eat rfl (.nt (.exp (prod_actualsEnd.trans (if_pos hs)) (R s stk b c hc hv))))
    · rename_i hs
      cases h
      exact ⟨tl, rfl, suf1, fun s stk b c hc hv => .exp rfl (.eat rfl (.nt (.exp (prod_actualsEnd.trans (if_neg hs)) .refl)))⟩
  · rename_i hne
    cases h
    subst hts
    exact .here fun s stk b c hc hv => .exp (prod_actualsP (hd_ne (fun ⟨u, e⟩ => hne _ e) nofun)) .refl

/-! ## Dictionaries -/

theorem prod_optEnts {tl : List LT} {y} (h : y = NT.optEnts ∨ y = NT.entsEnd) : prod y (hd tl).1 =
    if startsExpr (tl.map Prod.fst) then some [.n .ent, .n .entsP] else some [] := by
  rw [starts_hd]; rcases h with rfl | rfl <;> rfl
theorem prod_entsP {t : T} (h : t ≠ .comma) : prod .entsP t = some [] := by
  cases t
  case comma => contradiction
  all_goals rfl

theorem ok_optEnts {k} (ih : OkE z conv k) : Ok_optEnts z conv (k+1) := by
  intro es r tl h hf
  rw [Snek.Parse.optEnts.eq_def] at h
  dsimp only at h
  split at h
  · rename_i hs
    refine Upto.trans List.suffix_rfl (ih.ents _ _ _ h hf) fun rl R y s stk b c hy hv => ?_
    exact .exp ((prod_optEnts hy).trans (if_pos hs)) (R s stk b c hv)
  · rename_i hs
    cases h
    exact .here fun y s stk b c hy hv => .exp ((prod_optEnts hy).trans (if_neg hs)) .refl

theorem ok_ents {k} (ih : OkE z conv k) : Ok_ents z conv (k+1) := by
  intro es r tl h hf
  rw [Snek.Parse.ents.eq_def] at h
  obtain ⟨⟨a, u⟩, h1, h2⟩ := bind_some h
  obtain ⟨ul, hul, su, R⟩ := ih.lvl _ _ _ _ (by decide) h1 hf
  dsimp only at hul h2 R
  split at h2
  · obtain ⟨m, vl, rfl, rfl⟩ := map_cons hul
    have su' := suf1.trans su
    obtain ⟨⟨v, u⟩, h3, h4⟩ := bind_some h2
    obtain ⟨wl, hwl, sw, R1⟩ := ih.lvl _ _ _ _ (by decide) h3 (hf.suffix su')
    dsimp only at hwl h4 R1
    subst hwl
    have go : ∀ (s : PSt) stk b c, s.vals.length + (1 + needE a) ≤ z.V → s.vals.length + (1 + needE v) ≤ z.V →
        Reach z conv (.n .ent :: .n .entsP :: stk) ((s.with (c :: s.vals)).lk tl b) (.n .entsP :: stk)
          ((s.with ((c + 2) :: s.vals)).lk wl (emitE z.W conv v (emitE z.W conv a b).pushPrev).pushPrev) := by
      intro s stk b c hv hv'
      refine .exp rfl ((R (s.with _) _ _ (by show s.vals.length + 1 + _ ≤ _; omega)).trans ?_)
      refine .actL (s.with ((c + 1) :: s.vals)) _ (count1 (by omega)) (.eat rfl (.nt ?_))
      refine (R1 (s.with _) _ _ (by show s.vals.length + 1 + _ ≤ _; omega)).trans ?_
      exact .actL (s.with ((c + 1 + 1) :: s.vals)) _ (count1 (by omega)) .refl
    rcases hd_cases (tl := wl) (a := .comma) nofun with ⟨n, xl, rfl⟩ | ⟨hne, hne'⟩
    · obtain ⟨⟨es', u'⟩, h5, h6⟩ := bind_some h4
      cases h6
      have sx := (suf1.trans sw).trans su'
      refine Upto.trans sx (ih.optEnts _ _ _ h5 (hf.suffix sx)) fun rl R2 s stk b c hv => ?_
      simp only [needL] at hv
      refine (go s stk b c (by omega) (by omega)).trans (.exp rfl (.eat rfl (.nt ?_)))
      have := R2 .entsEnd s stk (emitE z.W conv v (emitE z.W conv a b).pushPrev).pushPrev (c + 2) (.inr rfl) (by omega)
      rw [show c + 2 + es'.length = c + (Exprs.cons a (.cons v es')).length by simp only [Exprs.length]; omega] at this
      exact this
    · have h4 : some (Exprs.cons a (.cons v .nil), wl.map Prod.fst) = some (es, r) := by
        split at h4
        · exact absurd ‹_› (hne' _)
        · exact h4
      cases h4
      refine ⟨wl, rfl, sw.trans su', fun s stk b c hv => ?_⟩
      simp only [needL] at hv
      exact (go s stk b c (by omega) (by omega)).trans (.exp (prod_entsP hne) .refl)
  · cases h2

/-! ## Primaries -/

theorem prod_optTuple {tl : List LT} : prod .optTuple (hd tl).1 =
    if startsExpr (tl.map Prod.fst) then some [.n (.lvl 0), .n .optTupleP] else some [.a .push0] := by rw [starts_hd]; rfl
theorem prod_stringsP {t : T} (h : ∀ o, t ≠ .string o) : prod .stringsP t = some [] := by
  cases t
  case string o => exact absurd rfl (h o)
  all_goals rfl

theorem ok_strings (tl : List LT) (a : Expr) : Upto tl (stringsP a (tl.map Prod.fst)).2 fun rl => ∀ (s : PSt) stk b,
    Reach z conv (.n .stringsP :: stk) (s.lk tl (emitE z.W conv a b)) stk
      (s.lk rl (emitE z.W conv (stringsP a (tl.map Prod.fst)).1 b)) := by
  induction tl generalizing a with
  | nil => exact .here fun s stk b => .exp rfl .refl
  | cons t tl ih =>
    by_cases hs : ∃ o, t.1 = .string o
    · obtain ⟨o, ho⟩ := hs
      obtain ⟨t, n⟩ := t
      dsimp only at ho
      subst ho
      refine Upto.trans suf1 (ih (.binary .plus a (.str o))) fun rl R s stk b => ?_
      exact .exp rfl (.eat rfl (.actU s _ rfl (.nt (R s stk b))))
    · have e : stringsP a ((t :: tl).map Prod.fst) = (a, (t :: tl).map Prod.fst) := by
        rw [List.map_cons]
        generalize hx : t.1 = x
        cases x
        case string o => exact absurd ⟨o, hx⟩ hs
        all_goals rfl
      rw [e]
      exact .here fun s stk b => .exp (prod_stringsP fun o ho => hs ⟨o, ho⟩) .refl

theorem pow_big {W} (h : 1 ≤ W) : ¬ 2 ^ (8 * W) - 1 < 2 ^ (8 * W - 1) := by
  have : 2 ^ (8 * W) = 2 ^ (8 * W - 1) * 2 := by rw [← Nat.pow_succ]; congr 1; omega
  have := Nat.two_pow_pos (8 * W - 1)
  omega

theorem pow_small {W n} (h : 2 ≤ W) (hn : n ≤ 256) : n < 2 ^ (8 * W - 1) :=
  Nat.lt_of_lt_of_le (show n < 2 ^ 15 by omega) (Nat.pow_le_pow_right (by decide) (by omega))

theorem ok_prim {k} (hW : 2 ≤ z.W) (ih : OkE z conv k) : Ok_prim z conv (k+1) := by
  intro x r tl h hf
  generalize hts : tl.map Prod.fst = ts at h
  rw [Snek.Parse.prim.eq_def] at h
  split at h
  · cases h
  · cases ‹k + 1 = _›
    obtain ⟨n, tl, rfl, rfl⟩ := map_cons hts
    split at h
    · rename_i hs
      obtain ⟨⟨e, u⟩, h1, h2⟩ := bind_some h
      obtain ⟨ul, hul, su, R⟩ := ih.lvl _ _ _ _ (by decide) h1 (hf.suffix suf1)
      dsimp only at hul h2 R
      split at h2
      · cases h2
        obtain ⟨m, vl, rfl, rfl⟩ := map_cons hul
        refine ⟨vl, rfl, (suf1.trans su).trans suf1, fun s y stk b hv => ?_⟩
        have := needE_pos x
        refine .exp rfl (.eat rfl (.nt (.exp (prod_optTuple.trans (if_pos hs)) ((R s _ _ hv).trans (.exp rfl ?_)))))
        refine .pushL (v := 2 ^ (8 * z.W) - 1) rfl (by omega) (.eat rfl ?_)
        refine .actU s _ (congrArg ARes.ok (if_neg (pow_big (by omega)))) (.nt .refl)
      · obtain ⟨⟨es, ns, u⟩, h3, h4⟩ := bind_some h2
        obtain ⟨m, vl, rfl, rfl⟩ := map_cons hul
        have su' := (suf1.trans su).trans (suf1 (t := (.op, n)))
        obtain ⟨wl, hwl, sw, R1⟩ := ih.optActuals _ _ _ _ h3 (hf.suffix su')
        dsimp only at hwl h4 R1
        split at h4
        · cases h4
        · split at h4
          · cases h4
            have hlen := ‹¬ _ ≥ 256›
            obtain ⟨rfl, hlt⟩ := named_nil hlen
            obtain ⟨m', xl, rfl, rfl⟩ := map_cons hwl
            refine ⟨xl, rfl, (suf1.trans sw).trans su', fun s y stk b hv => ?_⟩
            simp only [needE] at hv
            refine .exp rfl (.eat rfl (.nt (.exp (prod_optTuple.trans (if_pos hs)) ((R s _ _ (by omega)).trans (.exp rfl (.eat rfl ?_))))))
            refine .actU s _ rfl (.nt ((R1 s _ _ (by simp only [needN]; omega)).trans ?_))
            refine .actL (s.with ((es.length + 1) :: s.vals)) (emitArgs z.W conv es (emitE z.W conv e b).pushPrev) ?_ (.eat rfl ?_)
            · refine (if_neg hlen).trans ?_
              exact congrArg ARes.ok (push_room (s := s.lk _ _) (by show s.vals.length < _; omega))
            · exact .actU s _ (congrArg ARes.ok (if_pos (pow_small hW (by omega)))) (.nt .refl)
          · cases h4
      · cases h2
    · rename_i hs
      split at h
      · cases h
        obtain ⟨m, vl, rfl, rfl⟩ := map_cons ‹_›
        refine ⟨vl, rfl, suf1.trans suf1, fun s y stk b hv => ?_⟩
        simp only [needE] at hv
        refine .exp rfl (.eat rfl (.nt (.exp (prod_optTuple.trans (if_neg hs)) ?_)))
        refine .pushL (v := 0) rfl (by omega) (.eat rfl ?_)
        exact .actU s _ (congrArg ARes.ok (if_pos (pow_small hW (by omega)))) (.nt .refl)
      · cases h
  · cases ‹k + 1 = _›
    obtain ⟨n, tl, rfl, rfl⟩ := map_cons hts
    obtain ⟨⟨es, ns, u⟩, h3, h4⟩ := bind_some h
    obtain ⟨wl, hwl, sw, R1⟩ := ih.optActuals _ _ _ _ h3 (hf.suffix suf1)
    dsimp only at hwl h4 R1
    split at h4
    · split at h4
      · cases h4
      · cases h4
        rename_i hlen
        obtain ⟨rfl, hlt⟩ := named_nil hlen
        obtain ⟨m', xl, rfl, rfl⟩ := map_cons hwl
        refine ⟨xl, rfl, (suf1.trans sw).trans suf1, fun s y stk b hv => ?_⟩
        simp only [needE] at hv
        refine .exp rfl (.eat rfl (.nt ((R1 s _ _ (by simp only [needN]; omega)).trans (.eat rfl ?_))))
        exact .actU s _ ((if_neg hlen).trans rfl) (.nt .refl)
    · cases h4
  · cases ‹k + 1 = _›
    obtain ⟨n, tl, rfl, rfl⟩ := map_cons hts
    obtain ⟨⟨es, u⟩, h3, h4⟩ := bind_some h
    obtain ⟨wl, hwl, sw, R1⟩ := ih.optEnts _ _ _ h3 (hf.suffix suf1)
    dsimp only at hwl h4 R1
    split at h4
    · cases h4
      obtain ⟨m', xl, rfl, rfl⟩ := map_cons hwl
      refine ⟨xl, rfl, (suf1.trans sw).trans suf1, fun s y stk b hv => ?_⟩
      simp only [needE] at hv
      refine .exp rfl (.eat rfl (.pushU (v := 0) rfl (by omega) (.nt ((R1 .optEnts s _ _ 0 (.inl rfl) hv).trans (.eat rfl ?_)))))
      exact .actU s _ (by rw [Nat.zero_add]; rfl) (.nt .refl)
    · cases h4
  · cases h
    obtain ⟨n, tl, rfl, rfl⟩ := map_cons hts
    exact ⟨tl, rfl, suf1, fun s y stk b hv => .exp rfl (.eat rfl (.actU s _ rfl (.nt .refl)))⟩
  · cases h
    obtain ⟨n, tl, rfl, rfl⟩ := map_cons hts
    exact ⟨tl, rfl, suf1, fun s y stk b hv => .exp rfl (.eat rfl (.actU s _ rfl (.nt .refl)))⟩
  · rename_i o _ _
    obtain ⟨n, tl, rfl, rfl⟩ := map_cons hts
    have h := Option.some.inj h
    have := ok_strings (z := z) (conv := conv) tl (.str o)
    rw [h] at this
    refine Upto.trans suf1 this fun rl R s y stk b hv => ?_
    exact .exp rfl (.eat rfl (.actU s _ rfl (.nt (R s _ b))))
  · cases h

theorem okE (hW : 2 ≤ z.W) (k : Nat) : OkE z conv k := by
  induction k with
  | zero =>
    constructor
    · intro _ _ _ _ _ h; rw [Parse.lvl] at h; cases h
    · intro _ _ _ h; rw [Parse.lvl] at h; cases h
    · intro _ _ _ h; rw [Parse.prim] at h; cases h
    · intro _ _ _ _ _ _ _ h; rw [Parse.tail] at h; cases h
    · intro _ _ _ _ h; rw [Parse.tail] at h; cases h
    · intro _ _ _ h; rw [Parse.chain] at h; cases h
    · intro _ _ _ _ h; rw [Parse.arrayIndex] at h; cases h
    · intro _ _ _ _ _ h; rw [Parse.slice] at h; cases h
    · intro _ _ _ h; rw [Parse.optExpr] at h; cases h
    · intro _ _ _ _ h; rw [Parse.optActuals] at h; cases h
    · intro _ _ _ _ _ _ h; rw [Parse.actuals] at h; cases h
    · intro _ _ _ _ _ _ h; rw [Parse.actualsP] at h; cases h
    · intro _ _ _ h; rw [Parse.optEnts] at h; cases h
    · intro _ _ _ h; rw [Parse.ents] at h; cases h
  | succ k ih =>
    have hc := ok_chain ih
    refine ⟨ok_lvl ih, ?_, ok_prim hW ih, ok_tail ih, ok_tail3 hc, hc, ok_arrayIndex ih, ok_slice ih, ok_optExpr ih,
      ok_optActuals ih, ok_actuals ih, ok_actualsP ih, ok_optEnts ih, ok_ents ih⟩
    intro x r tl h hf
    rw [Snek.Parse.lvl.eq_def] at h
    exact ih.prim _ _ _ h hf

end Snek.Pda
