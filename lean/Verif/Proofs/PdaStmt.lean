import Verif.Proofs.PdaExpr
/-! The table-driven parser on statements. -/
namespace Snek.Pda
open Snek.Vm Snek.Lang Snek.Lex Snek.Parse Spec.Syntax

variable {z : Sizes} {conv : BitVec 32 → BitVec 8}

/-- After a construct: the next token has been looked at (`none`), or the token matched last is `m`. -/
def PSt.en (s : PSt) (ts : List LT) (m : Option LT) (b : Buf) : PSt :=
  { s with ts := ts, la := m.isNone, tv := (m.getD (hd ts)).1, line := (m.getD (hd ts)).2, buf := b }

theorem Reach.nte {s : PSt} {x k ts m b k' s'} (h : Reach z conv (.n x :: k) (s.lk ts b) k' s') : Reach z conv (.n x :: k) (s.en ts m b) k' s' := by
  cases m with
  | none => exact h
  | some t => exact .nt h

theorem Reach.terme {s : PSt} {x k ts m b k' s'} (h : Reach z conv (.t x :: k) (s.lk ts b) k' s') : Reach z conv (.t x :: k) (s.en ts m b) k' s' := by
  cases m with
  | none => exact h
  | some t => exact .term h

theorem Reach.actE {a k k' s' ts m b} {s : PSt} (s1 : PSt) (b' : Buf) (h : Pda.act z conv a (s.en ts m b) = .ok (s1.en ts m b'))
    (r : Reach z conv k (s1.en ts m b') k' s') : Reach z conv (.a a :: k) (s.en ts m b) k' s' := .act h r

theorem Reach.pushE {a k v k' s' ts m b b'} {s : PSt} (h : Pda.act z conv a (s.en ts m b) = .ok ((s.en ts m b').push z v))
    (room : s.vals.length < z.V) (r : Reach z conv k ((s.with (v :: s.vals)).en ts m b') k' s') :
    Reach z conv (.a a :: k) (s.en ts m b) k' s' :=
  .act (by rw [h, push_room (s := s.en ts m b') room]; rfl) r

/-! ## Expressions on tokens with lines -/

theorem drop_suffix {tl rl : List LT} {r : List T} (h : rl <:+ tl) (e : rl.map Prod.fst = r) : tl.drop (tl.length - r.length) = rl := by
  obtain ⟨u, rfl⟩ := h
  subst e
  rw [List.length_append, List.length_map, Nat.add_sub_cancel]
  exact List.drop_left

theorem exprL_ok {k l e} {tl rl : List LT} (hW : 2 ≤ z.W) (hl : l ≤ 12) (h : exprL k l tl = some (e, rl)) (hf : Fine z.W tl) :
    rl <:+ tl ∧ ∀ (s : PSt) stk b, s.vals.length + needE e ≤ z.V →
      Reach z conv (.n (.lvl l) :: stk) (s.lk tl b) stk (s.lk rl (emitE z.W conv e b)) := by
  unfold exprL at h
  split at h
  · rename_i e' r h1
    cases h
    obtain ⟨rl, e1, su, R⟩ := (okE hW k).lvl _ _ _ _ hl h1 hf
    rw [drop_suffix su e1]
    exact ⟨su, R⟩
  · cases h

theorem optActualsL_ok {k es ns} {tl rl : List LT} (hW : 2 ≤ z.W) (h : optActualsL k tl = some (es, ns, rl)) (hf : Fine z.W tl) :
    rl <:+ tl ∧ ∀ (s : PSt) stk b, s.vals.length + (1 + max (needL es) (needN ns)) ≤ z.V →
      Reach z conv (.n .optActuals :: stk) (s.lk tl b) stk
        ((s.with ((es.length + 256 * ns.length) :: s.vals)).lk rl (emitNamed z.W conv ns (emitArgs z.W conv es b))) := by
  unfold optActualsL at h
  split at h
  · rename_i e' ns' r h1
    cases h
    obtain ⟨rl, e1, su, R⟩ := (okE hW k).optActuals _ _ _ _ h1 hf
    rw [drop_suffix su e1]
    exact ⟨su, R⟩
  · cases h

theorem exprL_name {k l x} {tl rl : List LT} (hl : l ≤ 13) (hf : Fine z.W tl) (h : exprL k l tl = some (.name x, rl)) : x < 256 ^ z.W := by
  unfold exprL at h
  split at h
  · rename_i e' r h1
    cases h
    obtain ⟨t, e, w⟩ := (sound k).lvl _ _ _ _ hl h1
    have : T.name x ∈ tl.map Prod.fst := by rw [e]; exact List.mem_append_left _ (name_mem w _ _ rfl)
    obtain ⟨p, hp, e⟩ := List.mem_map.1 this
    exact hf p hp x e
  · cases h

/-! ## Targets of assignments -/

theorem index_byte {W} {b : Buf} : (((b.add W .array).bytes[(b.add W .array).prev]?).getD 0).toNat = 16 := by
  simp [Buf.add, encode, Ins.opcode]

theorem lvalue_name {s : PSt} {x op} {b : Buf} (h : x < 256 ^ z.W) (hb : s.buf = b.add z.W (.id x)) :
    lvalue z op s = .ok (((s.push z x).push z op).code Buf.deletePrev) := by
  unfold lvalue
  rw [hb]
  refine (if_pos id_byte).trans ?_
  rw [id_rd h]

theorem lvalue_index {s : PSt} {op} {b : Buf} (hb : s.buf = b.add z.W .array) :
    lvalue z op s = .ok (((((s.code fun b => if op ≠ 56 then b.setPush b.prevPrev else b).push z 0).push z op)).code Buf.deletePrev) := by
  unfold lvalue
  rw [hb]
  exact (if_neg (by rw [index_byte]; decide)).trans (if_pos index_byte)

theorem lvalue_index' {s : PSt} {op} {b : Buf} (h : op ≠ 56) (hb : s.buf = b.add z.W .array) :
    lvalue z op s = .ok (((((s.code fun b => b.setPush b.prevPrev).push z 0).push z op)).code Buf.deletePrev) := by
  rw [lvalue_index hb]
  simp only [if_pos h]

theorem push2_code {s : PSt} {ts m b v w f} (h : s.vals.length + 2 ≤ z.V) :
    (((s.en ts m b).push z v).push z w).code f = (s.with (w :: v :: s.vals)).en ts m (f b) := by
  rw [push_room (s := s.en ts m b) (show s.vals.length < _ by omega), push_room (by show s.vals.length + 1 < _; omega)]
  rfl

theorem lvalue_name_en {s : PSt} {ts m x op} {b : Buf} (h : x < 256 ^ z.W) (hv : s.vals.length + 2 ≤ z.V) :
    lvalue z op (s.en ts m (b.add z.W (.id x))) = .ok ((s.with (op :: x :: s.vals)).en ts m (b.add z.W (.id x)).deletePrev) := by
  rw [lvalue_name (s := s.en ts m (b.add z.W (.id x))) h rfl, push2_code hv]

theorem lvalue_index_en {s : PSt} {ts m op} {b : Buf} (h : op ≠ 56) (hv : s.vals.length + 2 ≤ z.V) :
    lvalue z op (s.en ts m (b.add z.W .array)) =
      .ok ((s.with (op :: 0 :: s.vals)).en ts m ((b.add z.W .array).setPush (b.add z.W .array).prevPrev).deletePrev) := by
  rw [lvalue_index' (s := s.en ts m (b.add z.W .array)) h rfl]
  generalize b.add z.W .array = c
  exact congrArg _ (push2_code (z := z) (s := s) (b := c.setPush c.prevPrev) hv)

theorem lvalue_del_en {s : PSt} {ts m} {b : Buf} (hv : s.vals.length + 2 ≤ z.V) :
    lvalue z 56 (s.en ts m (b.add z.W .array)) = .ok ((s.with (56 :: 0 :: s.vals)).en ts m (b.add z.W .array).deletePrev) := by
  rw [lvalue_index (s := s.en ts m (b.add z.W .array)) rfl]
  generalize b.add z.W .array = c
  exact congrArg _ (push2_code (z := z) (s := s) (b := c) hv)

theorem aop_ne (op : AOp) : op.num ≠ 56 := by
  cases op with
  | aug o => cases o <;> decide
  | _ => decide

theorem ok_del {k e d} {tl rl : List LT} (hW : 2 ≤ z.W) (h : exprL k 12 tl = some (e, rl)) (hd : delOf e = some d) (hf : Fine z.W tl) :
    rl <:+ tl ∧ ∀ (s : PSt) stk b, s.vals.length + needS d ≤ z.V →
      Reach z conv (.n .del :: stk) (s.lk tl b) stk (s.lk rl (emitS z.W conv s.fd d b)) := by
  obtain ⟨su, R⟩ := exprL_ok (conv := conv) hW (by decide) h hf
  refine ⟨su, fun s stk b hv => ?_⟩
  cases e <;> try cases hd
  case name x =>
    simp only [needS] at hv
    refine .exp rfl ((R s _ b (by simp only [needE]; omega)).trans ?_)
    exact .actL (s.with (56 :: x :: s.vals)) _ (lvalue_name_en (m := none) (exprL_name (by decide) hf h) (by omega)) (.actL s _ rfl .refl)
  case index a i =>
    simp only [needS] at hv
    refine .exp rfl ((R s _ b (by simp only [needE]; omega)).trans ?_)
    exact .actL (s.with (56 :: 0 :: s.vals)) _ (lvalue_del_en (m := none) (by omega)) (.actL s _ rfl .refl)

theorem prod_delsP {t : T} (h : t ≠ .comma) : prod .delsP t = some [] := by
  cases t
  case comma => contradiction
  all_goals rfl
theorem prod_globalsP {t : T} (h : t ≠ .comma) : prod .globalsP t = some [] := by
  cases t
  case comma => contradiction
  all_goals rfl
theorem prod_globals {t : T} (h : ∀ x, t ≠ .name x) : prod .globals t = some [] := by
  cases t
  case name x => exact absurd rfl (h x)
  all_goals rfl
theorem prod_assignExprP {t : T} (h : ∀ x, t ≠ .assign x) : prod .assignExprP t = some [] := by
  cases t
  case assign x => exact absurd rfl (h x)
  all_goals rfl
theorem prod_smallStatsP {t : T} (h : t ≠ .semi) : prod .smallStatsP t = some [] := by
  cases t
  case semi => contradiction
  all_goals rfl
theorem prod_retExpr {tl : List LT} : prod .retExpr (hd tl).1 =
    if startsE tl then some [.n (.lvl 0)] else some [.a .null] := by unfold startsE; rw [starts_hd]; rfl
theorem prod_smallStat {t : T} (h1 : t ≠ .kw .return_) (h2 : t ≠ .kw .break_) (h3 : t ≠ .kw .continue_) (h4 : t ≠ .kw .pass)
    (h5 : t ≠ .kw .global) (h6 : t ≠ .kw .del) (h7 : t ≠ .kw .assert) : prod .smallStat t = some [.n .assignExpr] := by
  cases t
  case kw k =>
    cases k
    case return_ => contradiction
    case break_ => contradiction
    case continue_ => contradiction
    case pass => contradiction
    case global => contradiction
    case del => contradiction
    case assert => contradiction
    all_goals rfl
  all_goals rfl

/-- The head of the list is not `a`. -/
theorem hdL_ne {tl : List LT} {a : T} (h : ∀ n u, tl ≠ (a, n) :: u) (he : .eof ≠ a) : (hd tl).1 ≠ a := by
  cases tl with
  | nil => exact he
  | cons t tl => exact fun e => h t.2 tl (by rw [← e]; rfl)

theorem ok_delsP (hW : 2 ≤ z.W) : ∀ {k x} {tl rl : List LT}, delsP k tl = some (x, rl) → Fine z.W tl →
    rl <:+ tl ∧ ∀ (s : PSt) stk b, s.vals.length + needS x ≤ z.V →
      Reach z conv (.n .delsP :: stk) (s.lk tl b) stk (s.lk rl (emitS z.W conv s.fd x b))
  | 0, _, _, _, h, _ => by cases h
  | k+1, x, tl, rl, h, hf => by
    rw [Snek.Parse.delsP.eq_def] at h
    split at h
    · cases h
    · cases ‹k + 1 = _›
      obtain ⟨⟨e, u⟩, h1, h2⟩ := bind_some h
      obtain ⟨d, h3, h4⟩ := bind_some h2
      obtain ⟨⟨y, u'⟩, h5, h6⟩ := bind_some h4
      cases h6
      obtain ⟨su, R⟩ := ok_del (conv := conv) hW h1 h3 (hf.suffix suf1)
      obtain ⟨su', R'⟩ := ok_delsP hW h5 (hf.suffix (su.trans suf1))
      refine ⟨(su'.trans su).trans suf1, fun s stk b hv => ?_⟩
      simp only [needS] at hv
      exact .exp rfl (.eat rfl (.nt ((R s _ b (by omega)).trans (R' s stk _ (by omega)))))
    · rename_i hne
      cases h
      exact ⟨List.suffix_rfl, fun s stk b hv => .exp (prod_delsP (hdL_ne (fun n u e => hne _ _ e) nofun)) .refl⟩

theorem ok_globalsP : ∀ {x} {tl rl : List LT}, globalsP tl = some (x, rl) →
    rl <:+ tl ∧ needS x = 0 ∧ ∀ (s : PSt) y stk b,
      Reach z conv (.n .globalsP :: .n y :: stk) (s.lk tl b) (.n y :: stk) (s.lk rl (emitS z.W conv s.fd x b)) := by
  intro x tl rl h
  fun_induction globalsP tl generalizing x with
  | case1 n x' m ts ih =>
    obtain ⟨⟨y, u'⟩, h5, h6⟩ := bind_some h
    cases h6
    obtain ⟨su, hn, R⟩ := ih h5
    refine ⟨(su.trans suf1).trans suf1, by simp only [needS, hn]; rfl, fun s y stk b => ?_⟩
    exact .exp rfl (.eat rfl (.nt (.exp rfl (.eat rfl (.actU s _ rfl (.nt (R s y stk _)))))))
  | case2 => cases h
  | case3 tl hne hne' =>
    cases h
    refine ⟨List.suffix_rfl, rfl, fun s y stk b => .exp (prod_globalsP (hdL_ne (fun n u e => ?_) nofun)) .refl⟩
    exact hne' _ _ e

theorem ok_small {k x} {tl rl : List LT} (hW : 2 ≤ z.W) (h : small k tl = some (x, rl)) (hf : Fine z.W tl) :
    rl <:+ tl ∧ ∀ (s : PSt) y stk b, s.vals.length + needS x ≤ z.V →
      Reach z conv (.n .smallStat :: .n y :: stk) (s.lk tl b) (.n y :: stk) (s.lk rl (emitS z.W conv s.fd x b)) := by
  unfold small at h
  split at h
  · split at h
    · rename_i hs
      obtain ⟨⟨e, u⟩, h1, h2⟩ := bind_some h
      cases h2
      obtain ⟨su, R⟩ := exprL_ok (conv := conv) hW (by decide) h1 (hf.suffix suf1)
      refine ⟨su.trans suf1, fun s y stk b hv => ?_⟩
      refine .exp rfl (.eat rfl (.nt (.exp (prod_retExpr.trans (if_pos hs)) ((R s _ b hv).trans (.actL s _ rfl .refl)))))
    · rename_i hs
      cases h
      refine ⟨suf1, fun s y stk b hv => ?_⟩
      exact .exp rfl (.eat rfl (.nt (.exp (prod_retExpr.trans (if_neg hs)) (.actL s _ rfl (.actL s _ rfl .refl)))))
  · cases h
    exact ⟨suf1, fun s y stk b hv => .exp rfl (.eat rfl (.actU s _ rfl (.nt .refl)))⟩
  · cases h
    exact ⟨suf1, fun s y stk b hv => .exp rfl (.eat rfl (.actU s _ rfl (.nt .refl)))⟩
  · cases h
    exact ⟨suf1, fun s y stk b hv => .exp rfl (.eat rfl (.nt .refl))⟩
  · obtain ⟨⟨y, u'⟩, h5, h6⟩ := bind_some h
    cases h6
    obtain ⟨su, hn, R⟩ := ok_globalsP (z := z) (conv := conv) h5
    refine ⟨(su.trans suf1).trans suf1, fun s y stk b hv => ?_⟩
    exact .exp rfl (.eat rfl (.nt (.exp rfl (.exp rfl (.eat rfl (.actU s _ rfl (.nt (R s y stk _))))))))
  · rename_i hne
    cases h
    refine ⟨suf1, fun s y stk b hv => .exp rfl (.eat rfl (.nt (.exp (prod_globals fun x e => ?_) .refl)))⟩
    cases rl with
    | nil => cases e
    | cons t rl => exact hne x t.2 rl (by rw [← show t.1 = _ from e])
  · obtain ⟨⟨e, u⟩, h1, h2⟩ := bind_some h
    obtain ⟨d, h3, h4⟩ := bind_some h2
    obtain ⟨⟨y, u'⟩, h5, h6⟩ := bind_some h4
    cases h6
    obtain ⟨su, R⟩ := ok_del (conv := conv) hW h1 h3 (hf.suffix suf1)
    obtain ⟨su', R'⟩ := ok_delsP (conv := conv) hW h5 (hf.suffix (su.trans suf1))
    refine ⟨(su'.trans su).trans suf1, fun s y stk b hv => ?_⟩
    simp only [needS] at hv
    exact .exp rfl (.eat rfl (.nt ((R s _ b (by omega)).trans (R' s _ _ (by omega)))))
  · obtain ⟨⟨e, u⟩, h1, h2⟩ := bind_some h
    cases h2
    obtain ⟨su, R⟩ := exprL_ok (conv := conv) hW (by decide) h1 (hf.suffix suf1)
    refine ⟨su.trans suf1, fun s y stk b hv => ?_⟩
    refine .exp rfl (.eat rfl (.nt ((R s _ b hv).trans (.actL s _ rfl .refl))))
  · rename_i n1 n2 n3 n4 n5 n5' n6 n7
    obtain ⟨⟨e, u⟩, h1, h2⟩ := bind_some h
    obtain ⟨su, R⟩ := exprL_ok (conv := conv) hW (by decide) h1 hf
    have E : prod .smallStat (hd tl).1 = some [.n .assignExpr] :=
      prod_smallStat (hdL_ne (fun n u e => n1 _ _ e) nofun) (hdL_ne (fun n u e => n2 _ _ e) nofun)
        (hdL_ne (fun n u e => n3 _ _ e) nofun) (hdL_ne (fun n u e => n4 _ _ e) nofun)
        (hdL_ne (fun n u e => n5' _ _ e) nofun) (hdL_ne (fun n u e => n6 _ _ e) nofun) (hdL_ne (fun n u e => n7 _ _ e) nofun)
    dsimp only at h2
    split at h2
    · rename_i o l u
      obtain ⟨⟨v, u'⟩, h3, h4⟩ := bind_some h2
      obtain ⟨d, h5, h6⟩ := bind_some h4
      cases h6
      obtain ⟨su', R'⟩ := exprL_ok (conv := conv) hW (by decide) h3 (hf.suffix (suf1.trans su))
      refine ⟨su'.trans (suf1.trans su), fun s y stk b hv => ?_⟩
      cases e <;> try cases h5
      case h_1.refl.name.refl x =>
        simp only [needS] at hv
        refine .exp E (.exp rfl ((R s _ b (by simp only [needE]; omega)).trans (.exp rfl (.eat rfl ?_))))
        refine .actU (s.with (o.num :: x :: s.vals)) _ (lvalue_name_en (m := some _) (exprL_name (by decide) hf h1) (by omega)) ?_
        exact .nt ((R' _ _ _ (by show s.vals.length + 2 + _ ≤ _; omega)).trans (.actL s _ rfl .refl))
      case h_1.refl.index.refl a i =>
        simp only [needS] at hv
        refine .exp E (.exp rfl ((R s _ b (by simp only [needE]; omega)).trans (.exp rfl (.eat rfl ?_))))
        refine .actU (s.with (o.num :: 0 :: s.vals)) _ (lvalue_index_en (m := some _) (aop_ne o) (by omega)) ?_
        exact .nt ((R' _ _ _ (by show s.vals.length + 2 + _ ≤ _; omega)).trans (.actL s _ rfl .refl))
    · rename_i hne
      cases h2
      exact ⟨su, fun s y stk b hv => .exp E (.exp rfl ((R s _ b hv).trans (.exp (prod_assignExprP fun x => hdL_ne (fun n u e => hne x n u e) nofun) .refl)))⟩

theorem ok_smalls (hW : 2 ≤ z.W) : ∀ {k x} {tl rl : List LT}, smalls k tl = some (x, rl) → Fine z.W tl →
    rl <:+ tl ∧ ∀ (s : PSt) stk b, s.vals.length + needS x ≤ z.V →
      Reach z conv (.n .smallStat :: .n .smallStatsP :: stk) (s.lk tl b) stk (s.lk rl (emitS z.W conv s.fd x b))
  | 0, _, _, _, h, _ => by cases h
  | k+1, x, tl, rl, h, hf => by
    rw [Snek.Parse.smalls.eq_def] at h
    dsimp only at h
    obtain ⟨⟨y, u⟩, h1, h2⟩ := bind_some h
    obtain ⟨su, R⟩ := ok_small (conv := conv) hW h1 hf
    dsimp only at h2
    split at h2
    · obtain ⟨⟨r, u'⟩, h3, h4⟩ := bind_some h2
      cases h4
      obtain ⟨su', R'⟩ := ok_smalls hW h3 (hf.suffix (suf1.trans su))
      refine ⟨su'.trans (suf1.trans su), fun s stk b hv => ?_⟩
      simp only [needS] at hv
      exact (R s _ _ b (by omega)).trans (.exp rfl (.eat rfl (.nt (R' s _ _ (by omega)))))
    · rename_i hne
      cases h2
      exact ⟨su, fun s stk b hv => (R s _ _ b hv).trans (.exp (prod_smallStatsP (hdL_ne (fun n u e => hne n u e) nofun)) .refl)⟩

theorem ok_simple {k x} {tl rl : List LT} (hW : 2 ≤ z.W) (h : simple k tl = some (x, rl)) (hf : Fine z.W tl) :
    rl <:+ tl ∧ ∃ m, ∀ (s : PSt) stk b, s.vals.length + needS x ≤ z.V →
      Reach z conv (.n .simpleStat :: stk) (s.lk tl b) stk (s.en rl (some m) (emitS z.W conv s.fd x b)) := by
  unfold simple at h
  split at h
  · cases h
  · rename_i t n tl
    obtain ⟨⟨y, u⟩, h1, h2⟩ := bind_some h
    obtain ⟨su, R⟩ := ok_smalls (conv := conv) hW h1 hf
    dsimp only at h2
    split at h2
    · rename_i u' l
      cases h2
      refine ⟨suf1.trans su, (.nl, u'), fun s stk b hv => ?_⟩
      simp only [needS] at hv
      exact .exp rfl (.actL s _ rfl ((R s _ _ (by omega)).trans (.eat rfl .refl)))
    · cases h2

end Snek.Pda
