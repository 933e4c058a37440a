import Verif.Proofs.PdaStmt
import Verif.Proofs.ParseComplete
/-! The table-driven parser on compound statements. -/
namespace Snek.Pda
open Snek.Vm Snek.Lang Snek.Lex Snek.Parse Spec.Syntax

variable {z : Sizes} {conv : BitVec 32 → BitVec 8}

/-- The state with other values and another depth of `for` loops. -/
def PSt.wfd (s : PSt) (vs : List Nat) (fd : Nat) : PSt := { s with vals := vs, fd := fd }

def Ok_stat (z : Sizes) (conv : BitVec 32 → BitVec 8) (k : Nat) : Prop :=
  ∀ (tl : List LT) x (rl : List LT), stat k tl = some (x, rl) → Fine z.W tl → rl <:+ tl ∧ ∃ m : Option LT, ∀ (s : PSt) (stk : List Sym) (b : Buf),
    s.vals.length + needS x ≤ z.V → Reach z conv (.n .stat :: stk) (s.lk tl b) stk (s.en rl m (emitS z.W conv s.fd x b))
def Ok_elifs (z : Sizes) (conv : BitVec 32 → BitVec 8) (k : Nat) : Prop :=
  ∀ (tl : List LT) x (rl : List LT), elifs k tl = some (x, rl) → Fine z.W tl → rl <:+ tl ∧ ∃ m : Option LT, ∀ (s : PSt) (stk : List Sym) (b : Buf),
    s.vals.length + needElse x ≤ z.V → Reach z conv (.n .elifStats :: stk) (s.lk tl b) stk
      ((s.with ((emitElse z.W conv s.fd x b).1 :: s.vals)).en rl m (emitElse z.W conv s.fd x b).2)
def Ok_whileElse (z : Sizes) (conv : BitVec 32 → BitVec 8) (k : Nat) : Prop :=
  ∀ (tl : List LT) x (rl : List LT), whileElse k tl = some (x, rl) → Fine z.W tl → rl <:+ tl ∧ ∃ m : Option LT, ∀ (s : PSt) (stk : List Sym) (b : Buf),
    s.vals.length + (1 + needS x) ≤ z.V → Reach z conv (.n .whileElse :: stk) (s.lk tl b) stk (s.en rl m (emitS z.W conv s.fd x b))
def Ok_suite (z : Sizes) (conv : BitVec 32 → BitVec 8) (k : Nat) : Prop :=
  ∀ (tl : List LT) x (rl : List LT), suite k tl = some (x, rl) → Fine z.W tl → rl <:+ tl ∧ ∃ m : Option LT, ∀ (s : PSt) (stk : List Sym) (b : Buf),
    s.vals.length + (1 + needS x) ≤ z.V → Reach z conv (.n .suite :: stk) (s.lk tl b) stk (s.en rl m (emitS z.W conv s.fd x b))
def Ok_stats (z : Sizes) (conv : BitVec 32 → BitVec 8) (k : Nat) : Prop :=
  ∀ (tl : List LT) x (rl : List LT), stats k tl = some (x, rl) → Fine z.W tl → rl <:+ tl ∧ ∀ (s : PSt) (stk : List Sym) (b : Buf),
    s.vals.length + needS x ≤ z.V → Reach z conv (.n .stat :: .n .optStats :: stk) (s.lk tl b) stk (s.lk rl (emitS z.W conv s.fd x b))

/-- The statement nonterminals, with fuel `k`. -/
structure OkS (z : Sizes) (conv : BitVec 32 → BitVec 8) (k : Nat) : Prop where
  stat : Ok_stat z conv k
  elifs : Ok_elifs z conv k
  whileElse : Ok_whileElse z conv k
  suite : Ok_suite z conv k
  stats : Ok_stats z conv k

theorem prod_stat {t : T} (h1 : t ≠ .nl) (h2 : t ≠ .kw .if_) (h3 : t ≠ .kw .while_) (h4 : t ≠ .kw .for_) :
    prod .stat t = some [.n .simpleStat] := by
  cases t
  case nl => contradiction
  case kw k =>
    cases k
    case if_ => contradiction
    case while_ => contradiction
    case for_ => contradiction
    all_goals rfl
  all_goals rfl
theorem prod_suite {t : T} (h1 : t ≠ .nl) : prod .suite t = some [.n .simpleStat] := by
  cases t
  case nl => contradiction
  all_goals rfl
theorem prod_whileElse {t : T} (h1 : t ≠ .kw .else_) : prod .whileElse t = some [] := by
  cases t
  case kw k =>
    cases k
    case else_ => contradiction
    all_goals rfl
  all_goals rfl
theorem prod_elifStats {t : T} (h1 : t ≠ .kw .else_) (h2 : t ≠ .kw .elif) : prod .elifStats t = some [.a .pushCur] := by
  cases t
  case kw k =>
    cases k
    case else_ => contradiction
    case elif => contradiction
    all_goals rfl
  all_goals rfl
theorem prod_forParams {t : T} (h1 : t ≠ .kw .range) : prod .forParams t = some [.n (.lvl 0), .t .colon, .a .inEnd] := by
  cases t
  case kw k =>
    cases k
    case range => contradiction
    all_goals rfl
  all_goals rfl

theorem startsStat_hd {tl : List LT} : startsStat tl = startsStat1 (hd tl).1 := by
  cases tl with
  | nil => rfl
  | cons t tl =>
    obtain ⟨t, n⟩ := t
    cases t
    case kw k => cases k <;> rfl
    case bin k => cases k <;> rfl
    all_goals rfl

theorem prod_optStats {tl : List LT} : prod .optStats (hd tl).1 =
    if startsStat tl then some [.n .stat, .n .optStats] else some [] := by rw [startsStat_hd]; rfl

theorem push2_en {s : PSt} {ts m b v w} (h : s.vals.length + 2 ≤ z.V) :
    ((s.en ts m b).push z v).push z w = (s.with (w :: v :: s.vals)).en ts m b := by
  rw [push_room (s := s.en ts m b) (show s.vals.length < _ by omega), push_room (by show s.vals.length + 1 < _; omega)]
  rfl

theorem rangeEnd_ok {s : PSt} {ts m b n id} (h : s.vals.length + 2 ≤ z.V) (hn : n < 256) :
    act z conv .rangeEnd ((s.with (n :: id :: s.vals)).en ts m b) =
      .ok ((s.wfd (((b.add z.W (.rangeStart n (UInt8.ofNat s.fd) id)).add z.W (.rangeStep 0 (UInt8.ofNat s.fd) id)).prev ::
          ((b.add z.W (.rangeStart n (UInt8.ofNat s.fd) id)).add z.W (.rangeStep 0 (UInt8.ofNat s.fd) id)).prev :: s.vals) (s.fd + 1)).en ts m
        ((b.add z.W (.rangeStart n (UInt8.ofNat s.fd) id)).add z.W (.rangeStep 0 (UInt8.ofNat s.fd) id))) := by
  refine (if_neg (show ¬ n ≥ 256 by omega)).trans ?_
  exact congrArg (fun q : PSt => ARes.ok { q with fd := s.fd + 1 }) (push2_en (z := z) (s := s) h)

theorem inEnd_ok {s : PSt} {ts m b id} (h : s.vals.length + 2 ≤ z.V) (b') (hb : b' = (((((b.add z.W (.assign .plain (forTmp z.W (UInt8.ofNat s.fd) 0))).add z.W
      (numIns conv 0)).add z.W (.assign .plain (forTmp z.W (UInt8.ofNat s.fd) 1))).add z.W (.inStep 0 (UInt8.ofNat s.fd) id)))) :
    act z conv .inEnd ((s.with (id :: s.vals)).en ts m b) =
      .ok ((s.wfd (b'.prev :: b'.prev :: s.vals) (s.fd + 1)).en ts m b') := by
  subst hb
  exact congrArg (fun q : PSt => ARes.ok { q with fd := s.fd + 1 }) (push2_en (z := z) (s := s) h)

theorem loopEnd_ok {s : PSt} {ts m b} (h : s.vals.length + 2 ≤ z.V) :
    act z conv .loopEnd (s.en ts m b) =
      .ok ((s.with ((b.add z.W (.branch 0)).cur :: (b.add z.W (.branch 0)).prev :: s.vals)).en ts m (b.add z.W (.branch 0))) :=
  congrArg ARes.ok (push2_en (z := z) (s := s) h)

theorem named_nil {ns : Named} (h : ns.length = 0) : ns = .nil := by cases ns <;> simp_all [Named.length]

theorem exprL_starts {k l e} {tl rl : List LT} (hl : l ≤ 13) (h : exprL k l tl = some (e, rl)) : startsE tl = true := by
  unfold exprL at h
  split at h
  · rename_i e' r h1
    cases h
    obtain ⟨t, e, w⟩ := (sound k).lvl _ _ _ _ hl h1
    unfold startsE
    rw [e]
    exact starts_of w r
  · cases h

theorem starts_ne {tl : List LT} {t : T} (h : startsE tl = true) (ht : startsE1 t = false) : (hd tl).1 ≠ t := by
  intro e
  have := starts_hd (tl := tl)
  rw [e, ht] at this
  unfold startsE at h
  rw [this] at h
  cases h

theorem okS (hW : 2 ≤ z.W) : ∀ k, OkS z conv k
  | 0 => ⟨fun _ _ _ h => (by cases h), fun _ _ _ h => (by cases h), fun _ _ _ h => (by cases h), fun _ _ _ h => (by cases h), fun _ _ _ h => (by cases h)⟩
  | k+1 => by
    have I := okS hW k
    refine ⟨?_, ?_, ?_, ?_, ?_⟩
    · intro tl x rl h hf
      rw [Snek.Parse.stat.eq_def] at h
      split at h
      · cases ‹k + 1 = _›
      · cases h
        exact ⟨suf1, some _, fun s stk b hv => .exp rfl (.eat rfl .refl)⟩
      · cases ‹k + 1 = _›
        obtain ⟨⟨c, u⟩, h1, h2⟩ := bind_some h
        obtain ⟨su, R⟩ := exprL_ok (conv := conv) hW (by decide) h1 (hf.suffix suf1)
        dsimp only at h2
        split at h2
        · obtain ⟨⟨t, u2⟩, h3, h4⟩ := bind_some h2
          obtain ⟨⟨e, u3⟩, h5, h6⟩ := bind_some h4
          cases h6
          have su1 := suf1.trans su
          obtain ⟨su2, m2, R2⟩ := I.suite _ _ _ h3 ((hf.suffix suf1).suffix su1)
          obtain ⟨su3, m3, R3⟩ := I.elifs _ _ _ h5 ((hf.suffix suf1).suffix (su2.trans su1))
          refine ⟨(su3.trans (su2.trans su1)).trans suf1, m3, fun s stk b hv => ?_⟩
          simp only [needS] at hv
          refine .exp rfl (.actL s _ rfl (.exp rfl (.exp rfl (.eat rfl (.nt (.exp rfl ((R s _ _ (by omega)).trans (.eat rfl ?_))))))))
          refine .pushU (b' := Buf.add z.W (.branchFalse 0) _) rfl (by omega) (.nt ((R2 _ _ _ (by show s.vals.length + 1 + _ ≤ _; omega)).trans (.nte ?_)))
          refine (R3 _ _ _ (by show s.vals.length + 1 + _ ≤ _; omega)).trans ?_
          exact .actE s _ rfl .refl
        · cases h2
      · cases ‹k + 1 = _›
        obtain ⟨⟨c, u⟩, h1, h2⟩ := bind_some h
        obtain ⟨su, R⟩ := exprL_ok (conv := conv) hW (by decide) h1 (hf.suffix suf1)
        dsimp only at h2
        split at h2
        · obtain ⟨⟨t, u2⟩, h3, h4⟩ := bind_some h2
          obtain ⟨⟨e, u3⟩, h5, h6⟩ := bind_some h4
          cases h6
          have su1 := suf1.trans su
          obtain ⟨su2, m2, R2⟩ := I.suite _ _ _ h3 ((hf.suffix suf1).suffix su1)
          obtain ⟨su3, m3, R3⟩ := I.whileElse _ _ _ h5 ((hf.suffix suf1).suffix (su2.trans su1))
          refine ⟨(su3.trans (su2.trans su1)).trans suf1, m3, fun s stk b hv => ?_⟩
          simp only [needS] at hv
          refine .exp rfl (.actL s _ rfl (.exp rfl (.exp rfl (.pushL rfl (by omega) (.eat rfl (.nt ?_))))))
          refine (R _ _ _ (by show s.vals.length + 1 + _ ≤ _; omega)).trans (.eat rfl ?_)
          refine .pushU (b' := Buf.add z.W (.branchFalse 0) _) rfl (by show s.vals.length + 1 < _; omega) (.nt ((R2 _ _ _ (by show s.vals.length + 2 + _ ≤ _; omega)).trans ?_))
          refine .act (loopEnd_ok (by show s.vals.length + 2 + 2 ≤ _; omega)) (.nte ((R3 _ _ _ (by show s.vals.length + 4 + _ ≤ _; omega)).trans ?_))
          exact .actE s _ rfl .refl
        · cases h2
      · cases ‹k + 1 = _›
        obtain ⟨⟨es, ns, u⟩, h1, h2⟩ := bind_some h
        have hf' := ((((hf.suffix suf1).suffix suf1).suffix suf1).suffix suf1).suffix suf1
        obtain ⟨su, R⟩ := optActualsL_ok (conv := conv) hW h1 hf'
        dsimp only at h2
        split at h2
        · split at h2
          · cases h2
          · rename_i hn
            obtain ⟨⟨t, u2⟩, h3, h4⟩ := bind_some h2
            obtain ⟨⟨e, u3⟩, h5, h6⟩ := bind_some h4
            cases h6
            obtain rfl := named_nil (ns := ns) (by omega)
            have su1 := suf1.trans (suf1.trans su)
            obtain ⟨su2, m2, R2⟩ := I.suite _ _ _ h3 (hf'.suffix su1)
            obtain ⟨su3, m3, R3⟩ := I.whileElse _ _ _ h5 (hf'.suffix (su2.trans su1))
            refine ⟨(su3.trans (su2.trans su1)).trans (suf1.trans (suf1.trans (suf1.trans (suf1.trans suf1)))), m3, fun s stk b hv => ?_⟩
            simp only [needS] at hv
            refine .exp rfl (.actL s _ rfl (.exp rfl (.exp rfl (.eat rfl (.eat' rfl (.pushU rfl (by omega) (.eat' rfl (.nt ?_))))))))
            refine .exp rfl (.eat rfl (.eat' rfl (.nt ((R _ _ _ (by show s.vals.length + 1 + (1 + max _ 0) ≤ _; omega)).trans ?_))))
            refine .eat rfl (.eat' rfl (.act (rangeEnd_ok (s := s) (m := some _) (by omega) (by show es.length < 256; simp only [Named.length] at hn; omega)) ?_))
            refine .nte ((R2 _ _ _ (by show s.vals.length + 2 + _ ≤ _; omega)).trans ?_)
            refine .act (loopEnd_ok (by show s.vals.length + 2 + 2 ≤ _; omega)) ?_
            refine .actE (s.with _) _ rfl (.nte ((R3 _ _ _ (by show s.vals.length + 4 + _ ≤ _; omega)).trans ?_))
            exact .actE s _ rfl .refl
        · cases h2
      · rename_i n0 n1
        cases ‹k + 1 = _›
        obtain ⟨⟨c, u⟩, h1, h2⟩ := bind_some h
        have hf' := ((hf.suffix suf1).suffix suf1).suffix suf1
        obtain ⟨su, R⟩ := exprL_ok (conv := conv) hW (by decide) h1 hf'
        dsimp only at h2
        split at h2
        · obtain ⟨⟨t, u2⟩, h3, h4⟩ := bind_some h2
          obtain ⟨⟨e, u3⟩, h5, h6⟩ := bind_some h4
          cases h6
          have su1 := suf1.trans su
          obtain ⟨su2, m2, R2⟩ := I.suite _ _ _ h3 (hf'.suffix su1)
          obtain ⟨su3, m3, R3⟩ := I.whileElse _ _ _ h5 (hf'.suffix (su2.trans su1))
          refine ⟨(su3.trans (su2.trans su1)).trans (suf1.trans (suf1.trans suf1)), m3, fun s stk b hv => ?_⟩
          simp only [needS] at hv
          refine .exp rfl (.actL s _ rfl (.exp rfl (.exp rfl (.eat rfl (.eat' rfl (.pushU rfl (by omega) (.eat' rfl (.nt ?_))))))))
          refine .exp (prod_forParams ?_) ((R _ _ _ (by show s.vals.length + 1 + _ ≤ _; omega)).trans ?_)
          · exact starts_ne (exprL_starts (by decide) h1) rfl
          refine .eat rfl (.act (inEnd_ok (s := s) (m := some _) (by omega) _ rfl) ?_)
          refine .nte ((R2 _ _ _ (by show s.vals.length + 2 + _ ≤ _; omega)).trans ?_)
          refine .act (loopEnd_ok (by show s.vals.length + 2 + 2 ≤ _; omega)) ?_
          refine .actE (s.with _) _ rfl (.nte ((R3 _ _ _ (by show s.vals.length + 4 + _ ≤ _; omega)).trans ?_))
          exact .actE s _ rfl .refl
        · cases h2
      · cases h
      · rename_i n1 n2 n3 n4 n5 n6
        cases ‹k + 1 = _›
        obtain ⟨su, m, R⟩ := ok_simple (conv := conv) hW h hf
        refine ⟨su, some m, fun s stk b hv => .exp (prod_stat ?_ ?_ ?_ ?_) (R s stk b hv)⟩
        · exact hdL_ne (fun n u e => n1 _ _ e) nofun
        · exact hdL_ne (fun n u e => n2 _ _ e) nofun
        · exact hdL_ne (fun n u e => n3 _ _ e) nofun
        · exact hdL_ne (fun n u e => n6 _ _ e) nofun
    · intro tl x rl h hf
      rw [Snek.Parse.elifs.eq_def] at h
      split at h
      · cases ‹k + 1 = _›
      · cases ‹k + 1 = _›
        obtain ⟨⟨c, u⟩, h1, h2⟩ := bind_some h
        obtain ⟨su, R⟩ := exprL_ok (conv := conv) hW (by decide) h1 (hf.suffix suf1)
        dsimp only at h2
        split at h2
        · obtain ⟨⟨t, u2⟩, h3, h4⟩ := bind_some h2
          obtain ⟨⟨e, u3⟩, h5, h6⟩ := bind_some h4
          cases h6
          have su1 := suf1.trans su
          obtain ⟨su2, m2, R2⟩ := I.suite _ _ _ h3 ((hf.suffix suf1).suffix su1)
          obtain ⟨su3, m3, R3⟩ := I.elifs _ _ _ h5 ((hf.suffix suf1).suffix (su2.trans su1))
          refine ⟨(su3.trans (su2.trans su1)).trans suf1, m3, fun s stk b hv => ?_⟩
          simp only [needElse] at hv
          refine .exp rfl (.eat rfl (.pushU (b' := Buf.addForward z.W fwIf (Buf.add z.W (.line _) b)) rfl (by omega) ?_))
          refine .nt (.exp rfl ((R _ _ _ (by show s.vals.length + 1 + _ ≤ _; omega)).trans (.eat rfl ?_)))
          refine .pushU (b' := Buf.add z.W (.branchFalse 0) _) rfl (by show s.vals.length + 1 < _; omega) (.nt ((R2 _ _ _ (by show s.vals.length + 2 + _ ≤ _; omega)).trans (.nte ?_)))
          refine (R3 _ _ _ (by show s.vals.length + 2 + _ ≤ _; omega)).trans ?_
          exact .actE (s.with (_ :: s.vals)) _ rfl .refl
        · cases h2
      · cases ‹k + 1 = _›
        obtain ⟨⟨t, u2⟩, h3, h4⟩ := bind_some h
        cases h4
        obtain ⟨su, m, R⟩ := I.suite _ _ _ h3 (hf.suffix (suf1.trans suf1))
        refine ⟨su.trans (suf1.trans suf1), m, fun s stk b hv => .exp rfl (.eat rfl (.eat' rfl ?_))⟩
        simp only [needElse] at hv
        exact .pushU (b' := Buf.addForward z.W fwIf b) rfl (by omega) (.nt (R _ _ _ (by show s.vals.length + 1 + _ ≤ _; omega)))
      · cases h
      · rename_i n1 n2 n3
        cases h
        refine ⟨List.suffix_rfl, none, fun s stk b hv => .exp (prod_elifStats ?_ ?_) (.pushL rfl (by simp only [needElse] at hv; omega) .refl)⟩
        · exact hdL_ne (fun n u e => n3 _ _ e) nofun
        · exact hdL_ne (fun n u e => n1 _ _ e) nofun
    · intro tl x rl h hf
      rw [Snek.Parse.whileElse.eq_def] at h
      split at h
      · cases ‹k + 1 = _›
      · cases ‹k + 1 = _›
        obtain ⟨su, m, R⟩ := I.suite _ _ _ h (hf.suffix (suf1.trans suf1))
        refine ⟨su.trans (suf1.trans suf1), m, fun s stk b hv => .exp rfl (.eat rfl (.eat' rfl (.nt (R s stk b hv))))⟩
      · cases h
      · rename_i n1 n2
        cases h
        refine ⟨List.suffix_rfl, none, fun s stk b hv => .exp (prod_whileElse ?_) .refl⟩
        exact hdL_ne (fun n u e => n2 _ _ e) nofun
    · intro tl x rl h hf
      rw [Snek.Parse.suite.eq_def] at h
      split at h
      · cases ‹k + 1 = _›
      · cases ‹k + 1 = _›
        obtain ⟨⟨y, u⟩, h1, h2⟩ := bind_some h
        obtain ⟨su, R⟩ := I.stats _ _ _ h1 (hf.suffix (suf1.trans suf1))
        dsimp only at h2
        split at h2
        · rename_i u new ln ts
          split at h2
          · cases h2
          · rename_i hlt
            cases h2
            refine ⟨suf1.trans (su.trans (suf1.trans suf1)), some (.exdent new, ln), fun s stk b hv => .exp rfl (.eat rfl (.eat' rfl ?_))⟩
            refine .pushU rfl (by omega) (.nt ((R _ _ _ ?_).trans (.eat rfl (.actU s _ ?_ .refl))))
            · show s.vals.length + 1 + _ ≤ _; omega
            · exact if_neg hlt
        · cases h2
      · cases h
      · rename_i n1 n2
        cases ‹k + 1 = _›
        obtain ⟨su, m, R⟩ := ok_simple (conv := conv) hW h hf
        refine ⟨su, some m, fun s stk b hv => .exp (prod_suite ?_) (R s stk b (by omega))⟩
        exact hdL_ne (fun n u e => n2 _ _ e) nofun
    · intro tl x rl h hf
      rw [Snek.Parse.stats.eq_def] at h
      dsimp only at h
      obtain ⟨⟨y, u⟩, h1, h2⟩ := bind_some h
      obtain ⟨su, m, R⟩ := I.stat _ _ _ h1 hf
      dsimp only at h2
      split at h2
      · rename_i hs
        obtain ⟨⟨r, u'⟩, h3, h4⟩ := bind_some h2
        cases h4
        obtain ⟨su', R'⟩ := I.stats _ _ _ h3 (hf.suffix su)
        refine ⟨su'.trans su, fun s stk b hv => ?_⟩
        simp only [needS] at hv
        exact (R s _ b (by omega)).trans (.nte (.exp (prod_optStats.trans (if_pos hs)) (R' s stk _ (by omega))))
      · rename_i hs
        cases h2
        exact ⟨su, fun s stk b hv => (R s _ b hv).trans (.nte (.exp (prod_optStats.trans (if_neg hs)) .refl))⟩

end Snek.Pda
