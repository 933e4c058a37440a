import Verif.Proofs.PdaStat
/-! The table-driven parser on commands. -/
namespace Snek.Pda
open Snek.Vm Snek.Lang Snek.Lex Snek.Parse Spec.Syntax

variable {z : Sizes} {conv : BitVec 32 → BitVec 8}

/-- The state with other formals. -/
def PSt.fm (s : PSt) (fs : List Nat) (n : Nat) : PSt := { s with formals := fs, nnamed := n }

theorem prod_optNamedP {t : T} (h : ∀ x, t ≠ .assign x) : prod .optNamedP t = some [.a .notNamed] := by
  cases t
  case assign x => exact absurd rfl (h x)
  all_goals rfl
theorem prod_formalsP {t : T} (h : t ≠ .comma) : prod .formalsP t = some [] := by
  cases t
  case comma => contradiction
  all_goals rfl
theorem prod_optFormals {t : T} (h : ∀ x, t ≠ .name x) : prod .optFormals t = some [] := by
  cases t
  case name x => exact absurd rfl (h x)
  all_goals rfl
theorem prod_command {t : T} (h1 : t ≠ .kw .def_) (h2 : t ≠ .kw .import_) (h3 : t ≠ .kw .from_) :
    prod .command t = some [.n .stat, .a .finish] := by
  cases t
  case kw k =>
    cases k
    case def_ => contradiction
    case import_ => contradiction
    case from_ => contradiction
    all_goals rfl
  all_goals rfl
theorem prod_start {t : T} (h : t ≠ .eof) : prod .start t = some [.n .command, .n .start] := by
  cases t
  case eof => contradiction
  all_goals rfl

theorem formal_ok {s : PSt} {ts : List LT} {x l b} (h : s.formals.length < z.F) :
    act z conv .formal (s.ul ts (.name x, l) b) = .ok ((s.fm (s.formals ++ [x]) s.nnamed).ul ts (.name x, l) b) :=
  if_neg (show ¬ s.formals.length ≥ z.F by omega)

theorem named_ok {s : PSt} {ts : List LT} {fs x n b} :
    act z conv .named ((s.fm (fs ++ [x]) n).lk ts b) = .ok ((s.fm (fs ++ [x]) (n + 1)).lk ts (b.add z.W (.assign .named x))) := by
  show ARes.ok ((s.fm (fs ++ [x]) (n + 1)).lk ts (addRaw 42 (leBytes z.W ((fs ++ [x]).getLastD 0)) b)) = _
  rw [List.getLastD_concat]
  rfl

theorem notNamed_ok {s : PSt} {ts : List LT} {b} (h : s.nnamed = 0) : act z conv .notNamed (s.lk ts b) = .ok (s.lk ts b) :=
  if_neg (show ¬ s.nnamed ≠ 0 by omega)

theorem ok_formals (hW : 2 ≤ z.W) : ∀ {k nm xs ns} {tl rl : List LT}, formals k nm tl = some (xs, ns, rl) → Fine z.W tl →
    rl <:+ tl ∧ ∀ (s : PSt) stk b, (nm = false → s.nnamed = 0) → (nm = true → s.nnamed ≠ 0) → s.formals.length + xs.length ≤ z.F →
      s.vals.length + needN ns ≤ z.V →
      Reach z conv (.n .formal :: .n .formalsP :: stk) (s.lk tl b) stk
        ((s.fm (s.formals ++ xs) (s.nnamed + ns.length)).lk rl (emitDefaults z.W conv ns b))
  | 0, _, _, _, _, _, h, _ => by cases h
  | k+1, nm, xs, ns, tl, rl, h, hf => by
    rw [Snek.Parse.formals.eq_def] at h
    split at h
    · cases ‹k + 1 = _›
    · cases ‹k + 1 = _›
      rename_i x l1 a l2 ts
      obtain ⟨⟨e, u⟩, h1, h2⟩ := bind_some h
      have hf' := (hf.suffix suf1).suffix suf1
      obtain ⟨su, R⟩ := exprL_ok (conv := conv) hW (by decide) h1 hf'
      dsimp only at h2
      split at h2
      · obtain ⟨⟨xs', ns', u'⟩, h3, h4⟩ := bind_some h2
        cases h4
        obtain ⟨su', R'⟩ := ok_formals hW h3 (hf'.suffix (suf1.trans su))
        refine ⟨(su'.trans (suf1.trans su)).trans (suf1.trans suf1), fun s stk b _ _ hF hv => ?_⟩
        simp only [needN, List.length_cons] at hv hF
        refine .exp rfl (.eat rfl (.act (formal_ok (by omega)) (.nt (.exp rfl (.eat rfl (.nt ?_))))))
        refine (R _ _ _ (by show s.vals.length + _ ≤ _; omega)).trans (.act named_ok (.exp rfl (.eat rfl (.nt ?_))))
        have := R' (s.fm (s.formals ++ [x]) (s.nnamed + 1)) stk ((emitE z.W conv e b).add z.W (.assign .named x)) nofun (fun _ => Nat.succ_ne_zero _)
          (by show (s.formals ++ [x]).length + _ ≤ _; rw [List.length_append]; simp only [List.length_singleton]; omega) (by show s.vals.length + _ ≤ _; omega)
        refine this.trans ?_
        show Reach z conv stk ((s.fm ((s.formals ++ [x]) ++ _) (s.nnamed + 1 + _)).lk _ _) stk _
        rw [List.append_assoc, Nat.add_assoc, Nat.add_comm 1]
        exact .refl
      · rename_i hne
        cases h2
        refine ⟨su.trans (suf1.trans suf1), fun s stk b _ _ hF hv => ?_⟩
        simp only [needN, List.length_cons] at hv hF
        refine .exp rfl (.eat rfl (.act (formal_ok (by omega)) (.nt (.exp rfl (.eat rfl (.nt ?_))))))
        refine (R _ _ _ (by show s.vals.length + _ ≤ _; omega)).trans (.act named_ok ?_)
        exact .exp (prod_formalsP (hdL_ne (fun n u e => hne _ _ e) nofun)) .refl
    · cases ‹k + 1 = _›
      rename_i x l1 ts hna
      split at h
      · cases h
      · rename_i hnm
        have hN : prod .optNamedP _ = _ := prod_optNamedP (fun a => hdL_ne (fun n u e => hna _ _ _ e) nofun)
        split at h
        · obtain ⟨⟨xs', ns', u'⟩, h3, h4⟩ := bind_some h
          cases h4
          obtain ⟨su', R'⟩ := ok_formals hW h3 ((hf.suffix suf1).suffix suf1)
          refine ⟨su'.trans (suf1.trans suf1), fun s stk b h0 _ hF hv => ?_⟩
          simp only [List.length_cons] at hF
          have h0 := h0 (by simpa using hnm)
          refine .exp rfl (.eat rfl (.act (formal_ok (by omega)) (.nt (.exp hN (.act (notNamed_ok h0) (.exp rfl (.eat rfl (.nt ?_))))))))
          have := R' (s.fm (s.formals ++ [x]) s.nnamed) stk b (fun _ => h0) nofun
            (by show (s.formals ++ [x]).length + _ ≤ _; rw [List.length_append]; simp only [List.length_singleton]; omega) hv
          refine this.trans ?_
          show Reach z conv stk ((s.fm ((s.formals ++ [x]) ++ _) (s.nnamed + _)).lk _ _) stk _
          rw [List.append_assoc]
          exact .refl
        · rename_i hne
          cases h
          refine ⟨suf1, fun s stk b h0 _ hF hv => ?_⟩
          simp only [List.length_cons] at hF
          have h0 := h0 (by simpa using hnm)
          refine .exp rfl (.eat rfl (.act (formal_ok (by omega)) (.nt (.exp hN (.act (notNamed_ok h0) ?_)))))
          exact .exp (prod_formalsP (hdL_ne (fun n u e => hne _ _ e) nofun)) .refl
    · cases h

theorem ok_optFormals (hW : 2 ≤ z.W) {k xs ns} {tl rl : List LT} (h : optFormals k tl = some (xs, ns, rl)) (hf : Fine z.W tl) :
    rl <:+ tl ∧ ∀ (s : PSt) stk b, xs.length ≤ z.F → s.vals.length + needN ns ≤ z.V →
      Reach z conv (.n .optFormals :: stk) ((s.fm [] 0).lk tl b) stk
        ((s.fm xs ns.length).lk rl (emitDefaults z.W conv ns b)) := by
  unfold optFormals at h
  split at h
  · obtain ⟨su, R⟩ := ok_formals (conv := conv) hW h hf
    refine ⟨su, fun s stk b hF hv => .exp rfl (.exp rfl ?_)⟩
    have := R (s.fm [] 0) stk b (fun _ => rfl) nofun (by simpa [PSt.fm] using hF) hv
    rw [show (s.fm [] 0).nnamed + ns.length = ns.length from Nat.zero_add _] at this
    exact this
  · rename_i hne
    cases h
    exact ⟨List.suffix_rfl, fun s stk b hF hv => .exp (prod_optFormals fun a => hdL_ne (fun n u e => hne _ _ _ e) nofun) .refl⟩

/-- The end of a function, snek-gram.ll:38-47. -/
def finDef (W : Nat) (b : Buf) : List UInt8 :=
  if (b.bytes[b.prev]?.getD 0).toNat = 65 then b.deletePrev.bytes else (b.add W .null).bytes

theorem defEnd_ok {s : PSt} {vs ts m b x} : act z conv .defEnd ((s.with (x :: vs)).en ts m b) =
    .ok (PSt.en { s with vals := vs, out := s.out ++ [.fn x s.formals s.nnamed (finDef z.W b)] } ts m Buf.empty) := by
  unfold finDef
  by_cases h : (b.bytes[b.prev]?.getD 0).toNat = 65
  · simp [act, PSt.pop, PSt.with, PSt.en, h]
  · simp [act, PSt.pop, PSt.with, PSt.en, h]; rfl

theorem ok_command (hW : 2 ≤ z.W) {k c} {tl rl : List LT} (h : command k tl = some (c, rl)) (hf : Fine z.W tl) :
    rl <:+ tl ∧ ∃ m : Option LT, ∀ (s : PSt) stk, s.fd = 0 → s.vals.length + needCmd c ≤ z.V → formalsOf c ≤ z.F →
      ∃ s' : PSt, s'.fd = 0 ∧ s'.vals = s.vals ∧ s'.out = s.out ++ codeOf z.W conv c ∧
        Reach z conv (.n .command :: stk) (s.lk tl Buf.empty) stk (s'.en rl m Buf.empty) := by
  unfold command at h
  split at h
  · rename_i x l2 l3 ts
    obtain ⟨⟨xs, ns, u⟩, h1, h2⟩ := bind_some h
    have hf' := ((hf.suffix suf1).suffix suf1).suffix suf1
    obtain ⟨su, R⟩ := ok_optFormals (conv := conv) hW h1 hf'
    dsimp only at h2
    split at h2
    · obtain ⟨⟨y, u2⟩, h3, h4⟩ := bind_some h2
      cases h4
      obtain ⟨su2, m, R2⟩ := (okS (conv := conv) hW k).suite _ _ _ h3 (hf'.suffix (suf1.trans (suf1.trans su)))
      refine ⟨(su2.trans (suf1.trans (suf1.trans su))).trans (suf1.trans (suf1.trans suf1)), m, fun s stk hd hv hF => ?_⟩
      simp only [needCmd, formalsOf] at hv hF
      refine ⟨{ s with out := s.out ++ codeOf z.W conv (.fn x xs ⟨ns, y⟩), formals := xs, nnamed := ns.length }, hd, rfl, rfl, ?_⟩
      refine .exp rfl (.eat rfl (.eat' rfl ?_))
      refine .actU ((s.fm [] 0).with (x :: s.vals)) Buf.empty
        (congrArg ARes.ok (push_room (z := z) (v := x) (s := (s.fm [] 0).ul ((.op, l3) :: ts) (.name x, l2) Buf.empty) (show s.vals.length < _ by omega))) ?_
      refine .eat' rfl (.nt ?_)
      refine (R (s.with (x :: s.vals)) _ _ hF (by show s.vals.length + 1 + _ ≤ _; omega)).trans (.eat rfl (.eat' rfl (.nt ?_)))
      refine (R2 _ _ _ (by show s.vals.length + 1 + _ ≤ _; omega)).trans ?_
      refine .act ?_ .refl
      obtain ⟨vals, buf, fd, fs, n, o, t, la, tv, l⟩ := s
      dsimp only at hd
      subst hd
      exact defEnd_ok (s := ⟨vals, buf, 0, xs, ns.length, o, t, la, tv, l⟩) (vs := vals) (x := x) (b := emitS z.W conv 0 y (emitDefaults z.W conv ns Buf.empty))
    · cases h2
  · cases h
    exact ⟨suf1.trans suf1, some _, fun s stk hd hv hF => ⟨s, hd, rfl, (List.append_nil _).symm, .exp rfl (.eat rfl (.eat' rfl .refl))⟩⟩
  · split at h
    · rename_i ht
      cases h
      exact ⟨suf1.trans (suf1.trans (suf1.trans suf1)), some _, fun s stk hd hv hF => ⟨s, hd, rfl, (List.append_nil _).symm,
        .exp rfl (.eat rfl (.eat' rfl (.eat' rfl (.eat' ht .refl))))⟩⟩
    · cases h
  · cases h
  · cases h
  · cases h
  · rename_i n1 n2 n3 n4 n5 n6
    obtain ⟨⟨y, u⟩, h1, h2⟩ := bind_some h
    cases h2
    obtain ⟨su, m, R⟩ := (okS (conv := conv) hW k).stat _ _ _ h1 hf
    refine ⟨su, m, fun s stk hd hv hF => ?_⟩
    refine ⟨{ s with out := s.out ++ codeOf z.W conv (.stat y) }, hd, rfl, rfl, ?_⟩
    refine .exp (prod_command ?_ ?_ ?_) ((R s _ _ hv).trans (.act ?_ .refl))
    · exact hdL_ne (fun n u e => n4 _ _ e) nofun
    · exact hdL_ne (fun n u e => n5 _ _ e) nofun
    · exact hdL_ne (fun n u e => n6 _ _ e) nofun
    · obtain ⟨vals, buf, fd, fs, n, o, t, la, tv, l⟩ := s
      dsimp only at hd
      subst hd
      rfl

theorem small_ne_eof {k x} {tl rl : List LT} (h : small k tl = some (x, rl)) : (hd tl).1 ≠ .eof := by
  unfold small at h
  split at h
  all_goals first | (intro e; cases e; done) | skip
  obtain ⟨⟨e, u⟩, h1, h2⟩ := bind_some h
  exact starts_ne (exprL_starts (by decide) h1) rfl

theorem stat_ne_eof {k x} {tl rl : List LT} (h : stat k tl = some (x, rl)) : (hd tl).1 ≠ .eof := by
  rw [Snek.Parse.stat.eq_def] at h
  split at h
  · cases h
  all_goals first | (intro e; cases e; done) | skip
  unfold simple at h
  split at h
  · cases h
  · obtain ⟨⟨y, u⟩, h1, h2⟩ := bind_some h
    rw [Snek.Parse.smalls.eq_def] at h1
    split at h1
    · cases h1
    · obtain ⟨⟨y', u'⟩, h3, h4⟩ := bind_some h1
      exact small_ne_eof h3

theorem command_ne_eof {k x} {tl rl : List LT} (h : command k tl = some (x, rl)) : (hd tl).1 ≠ .eof := by
  unfold command at h
  split at h
  all_goals first | (intro e; cases e; done) | skip
  obtain ⟨⟨y', u'⟩, h3, h4⟩ := bind_some h
  exact stat_ne_eof h3

theorem ok_start (hW : 2 ≤ z.W) : ∀ {k cs} {tl : List LT}, start k tl = some cs → Fine z.W tl → ∀ s : PSt, s.fd = 0 →
    (∀ c ∈ cs, s.vals.length + needCmd c ≤ z.V ∧ formalsOf c ≤ z.F) →
    ∃ s' : PSt, s'.vals = s.vals ∧ s'.out = s.out ++ cs.flatMap (codeOf z.W conv) ∧
      Reach z conv [.n .start] (s.lk tl Buf.empty) [] s'
  | 0, _, _, h, _, _, _, _ => by cases h
  | k+1, cs, tl, h, hf, s, hd, hv => by
    rw [Snek.Parse.start.eq_def] at h
    split at h
    · cases h
    · cases h
      exact ⟨s.lk _ Buf.empty, rfl, (List.append_nil _).symm, .exp rfl .refl⟩
    · cases ‹k + 1 = _›
      obtain ⟨⟨c, u⟩, h1, h2⟩ := bind_some h
      obtain ⟨cs', h3, h4⟩ := bind_some h2
      cases h4
      obtain ⟨su, m, R⟩ := ok_command (conv := conv) hW h1 hf
      obtain ⟨s1, d1, v1, o1, R1⟩ := R s [.n .start] hd (hv _ List.mem_cons_self).1 (hv _ List.mem_cons_self).2
      obtain ⟨s2, v2, o2, R2⟩ := ok_start hW h3 (hf.suffix su) s1 d1 (fun c hc => by rw [v1]; exact hv _ (List.mem_cons_of_mem _ hc))
      refine ⟨s2, v2.trans v1, ?_, .exp (prod_start (command_ne_eof h1)) (R1.trans (.nte R2))⟩
      rw [o2, o1, List.flatMap_cons, List.append_assoc]

/-! ## The parser with a limited stack -/

theorem push_out {s : PSt} {v} : (s.push z v).out = s.out := by unfold PSt.push; split <;> rfl
theorem code_out {s : PSt} {f} : (s.code f).out = s.out := rfl

theorem act_out {a} {s s1 : PSt} (h : act z conv a s = .ok s1) : s.out <+: s1.out := by
  cases a <;> simp only [act, lvalue, PSt.pop] at h
  all_goals repeat' split at h
  all_goals first | (cases h; done) | skip
  all_goals cases h
  all_goals simp [push_out, code_out]

theorem Reach.out {k k' : List Sym} {s s' : PSt} (h : Reach z conv k s k' s') : s.out <+: s'.out := by
  induction h with
  | refl => exact List.prefix_rfl
  | look _ _ _ ih => exact ih
  | act a _ ih => exact (act_out a).trans ih
  | tok _ _ _ ih => exact ih
  | prod _ _ _ ih => exact ih

/-- With room enough on its stack the parser does what `Reach` says. -/
theorem Reach.run {k k' : List Sym} {s s' : PSt} (h : Reach z conv k s k' s') :
    ∃ n P0, ∀ P, P0 ≤ P → ∀ j, Pda.run z conv P (j + n) k s = Pda.run z conv P j k' s' := by
  induction h with
  | refl => exact ⟨0, 0, fun P _ j => rfl⟩
  | @look x k s k' s' a b _ ih =>
    obtain ⟨n, P0, ih⟩ := ih
    refine ⟨n + 1, P0, fun P hP j => ?_⟩
    rw [← ih P hP j]
    cases x with
    | a x => exact absurd rfl (b x)
    | t x => show (match step z conv P _ _ with | .next _ _ => _ | _ => _) = _; simp [step, a]
    | n x => show (match step z conv P _ _ with | .next _ _ => _ | _ => _) = _; simp [step, a]
  | act a _ ih =>
    obtain ⟨n, P0, ih⟩ := ih
    refine ⟨n + 1, P0, fun P hP j => ?_⟩
    rw [← ih P hP j]
    show (match step z conv P _ _ with | .next _ _ => _ | _ => _) = _; simp [step, a]
  | tok a b _ ih =>
    obtain ⟨n, P0, ih⟩ := ih
    refine ⟨n + 1, P0, fun P hP j => ?_⟩
    rw [← ih P hP j]
    show (match step z conv P _ _ with | .next _ _ => _ | _ => _) = _; simp [step, a, b]
  | @prod x r k s k' s' a b _ ih =>
    obtain ⟨n, P0, ih⟩ := ih
    refine ⟨n + 1, max P0 (r ++ k).length, fun P hP j => ?_⟩
    rw [← ih P (by omega) j]
    show (match step z conv P _ _ with | .next _ _ => _ | _ => _) = _
    have : (r ++ k).length ≤ P := by omega
    simp only [step, a, b, if_pos this]; rfl

theorem Reach.lim {P : Nat} {k k1 k' : List Sym} {s s1 s' : PSt} (E : ∀ n, Pda.run z conv P (n + 1) k s = Pda.run z conv P n k1 s1)
    (ih : ∃ n, (∀ j, Pda.run z conv P (j + n) k1 s1 = Pda.run z conv P j k' s') ∨
      ∃ s2, (∀ j, Pda.run z conv P (j + n) k1 s1 = some (.oom s2)) ∧ s2.out <+: s'.out) :
    ∃ n, (∀ j, Pda.run z conv P (j + n) k s = Pda.run z conv P j k' s') ∨
      ∃ s2, (∀ j, Pda.run z conv P (j + n) k s = some (.oom s2)) ∧ s2.out <+: s'.out := by
  obtain ⟨n, h | ⟨s2, h, ho⟩⟩ := ih
  · exact ⟨n + 1, .inl fun j => (E (j + n)).trans (h j)⟩
  · exact ⟨n + 1, .inr ⟨s2, fun j => (E (j + n)).trans (h j), ho⟩⟩

/-- With any stack it does that, or stops because the stack is full. -/
theorem Reach.limited {k k' : List Sym} {s s' : PSt} (h : Reach z conv k s k' s') (P : Nat) :
    ∃ n, (∀ j, Pda.run z conv P (j + n) k s = Pda.run z conv P j k' s') ∨
      ∃ s1, (∀ j, Pda.run z conv P (j + n) k s = some (.oom s1)) ∧ s1.out <+: s'.out := by
  induction h with
  | refl => exact ⟨0, .inl fun j => rfl⟩
  | @look x k s k' s' a b _ ih =>
    have E : ∀ n, Pda.run z conv P (n + 1) (x :: k) s = Pda.run z conv P n (x :: k) s.look := fun n => by
      cases x with
      | a x => exact absurd rfl (b x)
      | t x => show (match step z conv P _ _ with | .next _ _ => _ | _ => _) = _; simp [step, a]
      | n x => show (match step z conv P _ _ with | .next _ _ => _ | _ => _) = _; simp [step, a]
    exact Reach.lim E ih
  | @act x k s s1 k' s' a _ ih =>
    exact Reach.lim (fun n => by show (match step z conv P _ _ with | .next _ _ => _ | _ => _) = _; simp [step, a]) ih
  | tok a b _ ih =>
    exact Reach.lim (fun n => by show (match step z conv P _ _ with | .next _ _ => _ | _ => _) = _; simp [step, a, b]) ih
  | @prod x r k s k' s' a b g ih =>
    by_cases hP : (r ++ k).length ≤ P
    · exact Reach.lim (fun n => by
        show (match step z conv P _ _ with | .next _ _ => _ | _ => _) = _
        simp only [step, a, b, if_pos hP]; rfl) ih
    · refine ⟨1, .inr ⟨s, fun j => ?_, g.out⟩⟩
      show (match step z conv P _ _ with | .next _ _ => _ | _ => _) = _
      simp only [step, a, b, if_neg hP]; rfl

end Snek.Pda
