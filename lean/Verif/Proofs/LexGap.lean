import Verif.Proofs.LexMono
import Verif.Spec.Lex
/-!
# Which characters a token takes
-/
namespace Snek.Lex

/-- From `a` to `b` exactly the characters `g` went (beyond the end of the text, zeros). -/
def Took (g : List Ch) (a b : Core) : Prop := (∃ z, a.pend ++ List.replicate z 0 = g ++ b.pend) ∧ b.line = a.line + newlines g

theorem Took.refl (a : Core) : Took [] a a := ⟨⟨0, by simp⟩, by simp⟩

theorem Took.trans {g h : List Ch} {a b c : Core} (h1 : Took g a b) (h2 : Took h b c) : Took (g ++ h) a c := by
  obtain ⟨⟨z, hz⟩, hl⟩ := h1
  obtain ⟨⟨y, hy⟩, hm⟩ := h2
  refine ⟨⟨z + y, ?_⟩, ?_⟩
  · rw [← List.replicate_append_replicate, ← List.append_assoc, hz, List.append_assoc, hy, List.append_assoc]
  · rw [hm, hl]; simp only [newlines, List.count_append]; omega

theorem Reads.took {cs : List Ch} {a b : Core} (h : Reads cs a b) : Took cs a b := ⟨h.pend, h.line⟩

/-- Read and push back the end of what was read. -/
theorem Reads.took_push {us ws : List Ch} {a b : Core} (h : Reads (us ++ ws) a b) : Took us a (b.uns ws) := by
  obtain ⟨z, hz⟩ := h.pend
  refine ⟨⟨z, by rw [uns_pend, hz, List.append_assoc]⟩, ?_⟩
  rw [uns_line, h.line]; simp only [newlines, List.count_append]; omega

theorem took_rd (a : Core) : Took [a.hd] a a.rd := (Reads.one a).took

theorem took_peek (a : Core) : Took [] a (a.rd.un a.hd) := Reads.took_push (us := []) (ws := [a.hd]) (.one a)

/-- When the token buffer has room, `lextoken` returns the next character. -/
theorem lextoken_room {C : Cfg} {s : St} (h : s.text.length < C.maxTok) : (lextoken C s).1 = s.core.hd ∧
    (lextoken C s).2.text.length ≤ s.text.length + 1 := by
  have ht : (lexchar s).2.text = s.text := by unfold lexchar; split <;> rfl
  unfold lextoken addToken; simp only [ht]
  rw [if_neg (by omega : ¬ s.text.length = C.maxTok)]
  split
  · exact ⟨lexchar_hd s, by simp⟩
  · exact ⟨lexchar_hd s, by rw [ht]; omega⟩

theorem took_lextoken {C : Cfg} {s : St} (h : s.text.length < C.maxTok) : Took [(lextoken C s).1] s.core (lextoken C s).2.core := by
  rw [(lextoken_room h).1, lextoken_core]; exact took_rd _

theorem took_lookahead {C : Cfg} {s : St} (h : s.text.length < C.maxTok) : Took [] s.core (unlextoken (lextoken C s).1 (lextoken C s).2).core := by
  rw [(lextoken_room h).1, unlextoken_core, lextoken_core]; exact took_peek _

theorem unlextoken_text (c : Ch) (s : St) : (unlextoken c s).text.length = s.text.length - 1 := by simp [unlextoken, unlexchar]

/-- A step that takes characters other than newlines. -/
def Inline (s s' : St) : Prop := ∃ g, Took g s.core s'.core ∧ 10 ∉ g

theorem Inline.refl (s : St) : Inline s s := ⟨[], .refl _, by simp⟩

theorem Inline.trans {s s' s'' : St} (h : Inline s s') (h' : Inline s' s'') : Inline s s'' := by
  obtain ⟨g, h1, h2⟩ := h
  obtain ⟨f, f1, f2⟩ := h'
  exact ⟨_, h1.trans f1, by simp [h2, f2]⟩

theorem inline_checkEqual (C : Cfg) (t : Tok) (op : BinOp) (s : St) (h : s.text.length < C.maxTok) : Inline s (checkEqual C t op s).2 := by
  unfold checkEqual; simp only []
  split
  · exact ⟨_, took_lookahead h, by simp⟩
  · rename_i hc
    simp only [ne_eq, Decidable.not_not] at hc
    exact ⟨_, took_lextoken h, by rw [hc]; decide⟩

theorem inline_two (C : Cfg) (c : Ch) (f g : St → Tok × St) (s : St) (h : s.text.length + 1 < C.maxTok) (hc : c ≠ 10)
    (hf : ∀ s, s.text.length < C.maxTok → Inline s (f s).2) (hg : ∀ s, s.text.length < C.maxTok → Inline s (g s).2) :
    Inline s (two C c f g s).2 := by
  have hr := (lextoken_room (C := C) (s := s) (by omega)).2
  unfold two; simp only []
  split
  · rename_i he
    refine .trans ⟨_, took_lextoken (C := C) (by omega), ?_⟩ (hf _ (by omega))
    rw [he]; simp [Ne.symm hc]
  · exact .trans ⟨_, took_lookahead (C := C) (by omega), by simp⟩ (hg _ (by rw [unlextoken_text]; omega))

theorem inline_angle (C : Cfg) (c : Ch) (op : BinOp) (e p : Vm.CmpOp) (s : St) (h : s.text.length + 1 < C.maxTok) (hc : c ≠ 10) :
    Inline s (angle C c op e p s).2 := by
  have hr := (lextoken_room (C := C) (s := s) (by omega)).2
  unfold angle; simp only []
  split
  · rename_i he
    refine .trans ⟨_, took_lextoken (C := C) (by omega), ?_⟩ (inline_checkEqual C _ _ _ (by omega))
    rw [he]; simp [Ne.symm hc]
  · split
    · rename_i he
      exact ⟨_, took_lextoken (C := C) (by omega), by rw [he]; decide⟩
    · exact ⟨_, took_lookahead (C := C) (by omega), by simp⟩

theorem nstep_ne {n n' : NState} {c : Ch} (h : nstep n (cclass c) = some n') : c ≠ 10 := by
  intro hc; subst hc
  have : cclass 10 = .other := by decide
  rw [this] at h
  cases n <;> cases h

theorem inline_numLoop (C : Cfg) {k : Nat} {n : NState} {t : NClass} {c : Ch} {s s' : St} {tk : Tok}
    (h : numLoop C k n t c s = some (tk, s')) : Inline s s' := by
  induction k generalizing n t c s with
  | zero => cases h
  | succ k ih =>
    simp only [numLoop] at h
    generalize ha : (if t ≠ .underscore then addToken C c s else (true, s)) = a at h
    have hcore : a.2.core = s.core := by rw [← ha]; split <;> simp
    have ha' : Inline s a.2 := ⟨[], hcore ▸ .refl _, by simp⟩
    refine .trans ha' ?_
    split at h
    · split at h
      · rename_i hn
        refine .trans ⟨[(lexchar a.2).1], ?_, fun h => nstep_ne hn (List.mem_singleton.1 h).symm⟩ (ih h)
        rw [lexchar_hd, lexchar_core]; exact took_rd _
      · cases h
        refine ⟨[], ?_, by simp⟩
        rw [unlexchar_core, lexchar_core, lexchar_hd]; exact took_peek _
    · cases h; exact .refl _

theorem hex_ne {c : Ch} {n : Nat} (h : hex c = some n) : c ≠ 10 := by
  intro hc; subst hc; have : hex 10 = none := by decide
  rw [this] at h; cases h

theorem took_lexchar (s : St) : Took [(lexchar s).1] s.core (lexchar s).2.core := by rw [lexchar_hd, lexchar_core]; exact took_rd _

theorem inline_escape {s : St} {c : Ch} (h : (escape s).1 = some c) (hc : c ≠ 10) : Inline s (escape s).2 := by
  have one : ∀ {s : St}, (lexchar s).1 ≠ 10 → Inline s (lexchar s).2 := fun {s} hne =>
    ⟨_, took_lexchar s, fun h => hne (List.mem_singleton.1 h).symm⟩
  unfold escape at h ⊢; simp only [] at h ⊢
  by_cases h1 : (lexchar s).1 = 110
  · rw [if_pos h1] at h; exact absurd (Option.some.inj h).symm hc
  · rw [if_neg h1] at h ⊢
    by_cases h2 : (lexchar s).1 = 114
    · rw [if_pos h2]; exact one (by rw [h2]; decide)
    · rw [if_neg h2] at h ⊢
      by_cases h3 : (lexchar s).1 = 116
      · rw [if_pos h3]; exact one (by rw [h3]; decide)
      · rw [if_neg h3] at h ⊢
        by_cases h4 : (lexchar s).1 = 120
        · rw [if_pos h4] at h ⊢
          split at h
          · rename_i ha hb
            have : Inline s (lexchar (lexchar (lexchar s).2).2).2 :=
              (one (by rw [h4]; decide)).trans ((one (hex_ne ha)).trans (one (hex_ne hb)))
            split <;> exact this
          · cases h
        · rw [if_neg h4] at h ⊢
          exact one (by rw [Option.some.inj h]; exact hc)

theorem strLoop_inline (C : Cfg) {q : Ch} (hq : q ≠ 10) {k : Nat} {s s' : St} {b : List Ch} (h : strLoop C q k s = some (.string b, s')) :
    (∃ w, s'.text = s.text ++ w) ∧ (10 ∉ s'.text → Inline s s') := by
  induction k generalizing s with
  | zero => cases h
  | succ k ih =>
    simp only [strLoop] at h
    have htx : (lexchar s).2.text = s.text := by unfold lexchar; split <;> rfl
    split at h
    · rename_i hc
      cases h
      exact ⟨⟨[], by simp [htx]⟩, fun _ => ⟨_, took_lexchar s, by rw [hc]; simp [Ne.symm hq]⟩⟩
    · split at h
      · cases h
      · rename_i hne
        generalize he : (if (lexchar s).1 = 92 then escape (lexchar s).2 else (some (lexchar s).1, (lexchar s).2)) = e at h
        have h1 : Inline s (lexchar s).2 := ⟨_, took_lexchar s, fun h => hne (List.mem_singleton.1 h).symm⟩
        have e1 : e.2.text = s.text := by
          rw [← he]; split
          · rw [escape_text, htx]
          · exact htx
        split at h
        · cases h
        · rename_i c hc
          have e2 : c ≠ 10 → Inline (lexchar s).2 e.2 := by
            intro hc10
            rw [← he] at hc ⊢
            split
            · rename_i h92; rw [if_pos h92] at hc; exact inline_escape hc hc10
            · exact .refl _
          unfold addToken at h
          by_cases hf : e.2.text.length = C.maxTok
          · rw [if_pos hf] at h; cases h
          · rw [if_neg hf] at h
            obtain ⟨⟨w, hw⟩, hi⟩ := ih h
            have hw' : s'.text = s.text ++ (c :: w) := by rw [hw, e1]; simp
            refine ⟨⟨_, hw'⟩, fun h10 => ?_⟩
            have hc10 : c ≠ 10 := by
              intro h0; apply h10; rw [hw', h0]; simp
            refine (h1.trans (e2 hc10)).trans ?_
            have := hi h10
            exact this

theorem nameLoop_text (C : Cfg) {k : Nat} {s s' : St} (h : nameLoop C k s = some s') (hm : s.text.length ≤ C.maxTok) (h0 : 0 < s.text.length)
    (hs : s'.text.length + 1 < C.maxTok) : Inline s s' ∧ s.text.length ≤ s'.text.length + 1 := by
  induction k generalizing s with
  | zero => cases h
  | succ k ih =>
    simp only [nameLoop] at h
    by_cases hfull : s.text.length = C.maxTok
    · exfalso
      have ht : (lexchar s).2.text = s.text := by unfold lexchar; split <;> rfl
      have h1 : (lextoken C s).1 = 0 ∧ (lextoken C s).2.text = s.text := by
        unfold lextoken addToken; simp only [ht]
        rw [if_pos hfull]
        split
        · exact ⟨rfl, ht⟩
        · rename_i hz; simp only [ne_eq, Decidable.not_not] at hz; exact ⟨hz, ht⟩
      rw [h1.1, if_neg (by decide)] at h
      cases h
      rw [unlextoken_text, h1.2] at hs
      omega
    · have hroom : s.text.length < C.maxTok := by omega
      split at h
      · rename_i hn
        have hne : (lextoken C s).1 ≠ 0 := by intro h; rw [h] at hn; exact absurd hn (by decide)
        have hlen : (lextoken C s).2.text.length = s.text.length + 1 := by
          have ht : (lexchar s).2.text = s.text := by unfold lexchar; split <;> rfl
          unfold lextoken addToken at hne ⊢; simp only [ht] at hne ⊢
          rw [if_neg hfull] at hne ⊢
          split at hne
          · rename_i hz; rw [if_pos hz]; simp [ht]
          · rename_i hz; simp only [ne_eq, Decidable.not_not] at hz; exact absurd hz hne
        obtain ⟨g1, g2⟩ := ih h (by omega) (by omega)
        refine ⟨.trans ⟨_, took_lextoken hroom, ?_⟩ g1, by omega⟩
        simp only [List.mem_singleton]
        intro h; rw [← h] at hn; exact absurd hn (by decide)
      · cases h
        refine ⟨⟨_, took_lookahead hroom, by simp⟩, ?_⟩
        rw [unlextoken_text]
        have ht : (lexchar s).2.text = s.text := by unfold lexchar; split <;> rfl
        have : s.text.length ≤ (lextoken C s).2.text.length := by
          unfold lextoken addToken; simp only [ht]
          rw [if_neg hfull]
          split
          · simp
          · rw [ht]; omega
        omega

theorem unmatch_text (l : List Ch) (s : St) : (unmatch l s).text.length = s.text.length - l.length := by
  induction l generalizing s with
  | nil => simp [unmatch]
  | cons c l ih => rw [unmatch, ih, unlextoken_text, List.length_cons]; omega

theorem core_hd_cons {s : St} {d : Ch} (hd : d ≠ 0) (l : List Ch) : (d :: l) <+: s.pend ↔ s.core.hd = d ∧ l <+: s.core.rd.pend := by
  simp only [Core.hd, Core.rd, St.core]
  cases s.pend with
  | nil => simp; intro h; exact absurd h.symm hd
  | cons c m => simp [List.cons_prefix_cons, eq_comm]

/-- The trailing word, when the buffer has room: all of it is taken if it is there, otherwise nothing but spaces. -/
theorem took_matchWord (C : Cfg) (sp : Bool) (a : Core) (ns us : List Ch) (c : Ch) (done : List Ch) (s : St)
    (hr : Reads (us ++ ((if sp then [32] else []) ++ done.reverse ++ [c])) a s.core) (hroom : s.text.length + ns.length ≤ C.maxTok + 1)
    (h0 : 0 ∉ ns) (hns : ns ≠ []) :
    (ns <+: c :: s.pend → (matchWord C sp c done ns s).1 = true ∧
      Took (us ++ ((if sp then [32] else []) ++ done.reverse ++ ns)) a (matchWord C sp c done ns s).2.core) ∧
    (¬ ns <+: c :: s.pend → (matchWord C sp c done ns s).1 = false ∧ Took us a (matchWord C sp c done ns s).2.core) := by
  induction ns generalizing c done s with
  | nil => exact absurd rfl hns
  | cons n ns ih =>
    simp only [List.mem_cons, not_or] at h0
    simp only [List.length_cons] at hroom
    simp only [matchWord]
    by_cases hcn : c = n
    · subst hcn
      simp only [ne_eq, not_true_eq_false, if_false, List.cons_prefix_cons, true_and]
      cases ns with
      | nil => exact ⟨fun _ => ⟨rfl, hr.took⟩, fun h => absurd List.nil_prefix h⟩
      | cons m ns =>
        simp only [List.length_cons] at hroom
        have hrm := lextoken_room (C := C) (s := s) (by omega)
        have key := ih (lextoken C s).1 (c :: done) (lextoken C s).2 (by
          rw [hrm.1, lextoken_core]
          have := hr.append (.one s.core)
          simpa using this) (by simp only [List.length_cons]; omega) h0.2 (by simp)
        have hpre : (m :: ns) <+: (lextoken C s).1 :: (lextoken C s).2.pend ↔ (m :: ns) <+: s.pend := by
          simp only [List.mem_cons, not_or] at h0
          rw [core_hd_cons (Ne.symm h0.2.1), List.cons_prefix_cons, hrm.1]
          rw [show (lextoken C s).2.pend = (lextoken C s).2.core.pend from rfl, lextoken_core]
          simp [eq_comm]
        rw [hpre] at key
        refine ⟨fun h => ?_, key.2⟩
        obtain ⟨k1, k2⟩ := key.1 h
        exact ⟨k1, by simpa using k2⟩
    · rw [if_pos hcn]
      refine ⟨fun h => absurd (List.cons_prefix_cons.1 h).1.symm hcn, fun _ => ⟨rfl, ?_⟩⟩
      have := Reads.took_push hr
      cases sp
      · simpa [unmatch_core, Core.uns] using this
      · simpa [unmatch_core, Core.uns] using this

/-- `trailing`: the spaces before the word stay, except for repetitions. -/
theorem took_trailing (C : Cfg) {k : Nat} {next : List Ch} {a b : Tok} {s s' : St} {tk : Tok} (h : trailing C k next a b s = some (tk, s'))
    (hroom : s.text.length + 1 + next.length ≤ C.maxTok) (h0 : 0 ∉ next) (hn : next ≠ []) :
    ∃ n c s1, spaces k s = some (n, c, s1) ∧
      (next <+: c :: s1.pend → tk = b ∧ Took (List.replicate n 32 ++ next) s.core s'.core) ∧
      (¬ next <+: c :: s1.pend → tk = a ∧ Took (List.replicate (n - 1) 32) s.core s'.core) := by
  simp only [trailing] at h
  split at h
  · cases h
  · rename_i n c s1 hsp
    obtain ⟨hr, -, ht⟩ := reads_spaces hsp
    refine ⟨n, c, s1, hsp, ?_⟩
    simp only [Option.some.injEq, Prod.mk.injEq] at h
    generalize hs2 : (if decide (n ≠ 0) = true then (addToken C 32 s1).2 else s1) = s2 at h
    have c2 : s2.core = s1.core := by rw [← hs2]; split <;> simp
    have l2 : s2.text.length ≤ s1.text.length + 1 := by
      rw [← hs2]; split
      · unfold addToken; split <;> simp
      · omega
    have l3 : (addToken C c s2).2.text.length ≤ s2.text.length + 1 := by unfold addToken; split <;> simp
    have hp : (addToken C c s2).2.pend = s1.pend := congrArg Core.pend ((addToken_core C c s2).trans c2)
    have key := took_matchWord C (decide (n ≠ 0)) s.core next (List.replicate (n - 1) 32) c [] (addToken C c s2).2 (by
      rw [addToken_core, c2]
      cases n with
      | zero => simpa using hr
      | succ n =>
        have e : List.replicate (n + 1) (32 : Ch) = List.replicate n 32 ++ [32] := List.replicate_succ' ..
        rw [e] at hr
        simpa using hr) (by rw [ht] at l2; omega) h0 hn
    rw [hp] at key
    have e : List.replicate (n - 1) (32 : Ch) ++ ((if decide (n ≠ 0) = true then [32] else []) ++ [].reverse ++ next) = List.replicate n 32 ++ next := by
      cases n with
      | zero => simp
      | succ n => simp [List.replicate_succ']
    rw [e] at key
    rw [← h.1, ← h.2]
    refine ⟨fun hh => ?_, fun hh => ?_⟩
    · obtain ⟨k1, k2⟩ := key.1 hh; rw [k1]; exact ⟨rfl, k2⟩
    · obtain ⟨k1, k2⟩ := key.2 hh; rw [k1]; exact ⟨rfl, k2⟩

theorem kwOf_len {t : List Ch} {w : Kw} (h : kwOf t = some w) : t.length ≤ 8 := by
  unfold kwOf at h
  repeat' (with_reducible refine ite_elim' h ?_ ?_ <;> clear h <;> intro hp h)
  all_goals first
    | (subst hp; decide)
    | cases h

theorem inline_open (s : St) : Inline s (lexOpen s) := ⟨[], .refl _, by simp⟩

theorem inline_close (s : St) : Inline s (lexClose s) := ⟨[], by rw [lexClose_core]; exact .refl _, by simp⟩

theorem inline_string {C : Cfg} {k : Nat} {q : Ch} {s s' : St} {t : Tok} (h : string C k q s = some (t, s')) (ht : t.proper = true)
    (hq' : q ≠ 10) (hstr : ∀ b, t = .string b → 10 ∉ s'.text) : Inline s s' := by
  have : ∃ b, t = .string b := by
    unfold string at h
    generalize startToken s = s0 at h
    induction k generalizing s0 with
    | zero => cases h
    | succ k ih =>
      simp only [strLoop] at h
      split at h
      · cases h; exact ⟨_, rfl⟩
      · split at h
        · cases h; cases ht
        · generalize (if (lexchar s0).1 = 92 then escape (lexchar s0).2 else (some (lexchar s0).1, (lexchar s0).2)) = e at h
          split at h
          · cases h; cases ht
          · split at h
            · exact ih _ h
            · cases h; cases ht
  obtain ⟨b, rfl⟩ := this
  exact (strLoop_inline C hq' (s := startToken s) h).2 (hstr b rfl)

theorem inline_number {C : Cfg} {k : Nat} {c : Ch} {s s' : St} {t : Tok} (h : number C k c s = some (t, s')) : Inline s s' :=
  inline_numLoop C (s := startToken s) h

theorem inline_word {C : Cfg} (hC : 12 ≤ C.maxTok) {k : Nat} {c : Ch} {s s' : St} {t : Tok} (h : word C k c s = some (t, s'))
    (hs : s.text.length = 1) (ht : t.proper = true) (hname : ∀ w, t = .name w → w.length + 1 < C.maxTok) : Inline s s' := by
  unfold word at h
  split at h
  · split at h
    · cases h
    · rename_i s1 hn
      have h1 := nameLoop_text C hn (by omega) (by omega)
      split at h
      · rename_i hk
        have hl := kwOf_len hk
        have hkt : s1.text.length ≤ 3 := by
          have : s1.text = [105, 115] := by
            revert hk
            generalize s1.text = tx
            unfold kwOf
            intro h
            repeat' (with_reducible refine ite_elim' h ?_ ?_ <;> clear h <;> intro hp h)
            all_goals first | exact hp | cases h
          rw [this]; decide
        refine (h1 (by omega)).1.trans ?_
        obtain ⟨n, d, s2, -, t1, t2⟩ := took_trailing C h (by simp; omega) (by decide) (by decide)
        by_cases hp : [110, 111, 116] <+: d :: s2.pend
        · exact ⟨_, (t1 hp).2, by simp⟩
        · exact ⟨_, (t2 hp).2, by simp⟩
      · rename_i hk
        have hl := kwOf_len hk
        have hkt : s1.text.length ≤ 3 := by
          have : s1.text = [110, 111, 116] := by
            revert hk
            generalize s1.text = tx
            unfold kwOf
            intro h
            repeat' (with_reducible refine ite_elim' h ?_ ?_ <;> clear h <;> intro hp h)
            all_goals first | exact hp | cases h
          rw [this]; decide
        refine (h1 (by omega)).1.trans ?_
        obtain ⟨n, d, s2, -, t1, t2⟩ := took_trailing C h (by simp; omega) (by decide) (by decide)
        by_cases hp : [105, 110] <+: d :: s2.pend
        · exact ⟨_, (t1 hp).2, by simp⟩
        · exact ⟨_, (t2 hp).2, by simp⟩
      · rename_i w _ _ hk
        have hl := kwOf_len hk
        cases h
        exact (h1 (by omega)).1
      · cases h
        exact (h1 (hname _ rfl)).1
  · cases h; cases ht

/-- The ways `token` goes. -/
inductive TokenCase (C : Cfg) (k : Nat) (c : Ch) (s : St) (r : Tok × St) : Prop
  | word : word C k c s = some r → TokenCase C k c s r
  | number : number C k c s = some r → TokenCase C k c s r
  | string : string C k c s = some r → TokenCase C k c s r
  | plain (t : Tok) : (t, s) = r → TokenCase C k c s r
  | opens (t : Tok) : (t, lexOpen s) = r → TokenCase C k c s r
  | closes (t : Tok) : (t, lexClose s) = r → TokenCase C k c s r
  | equal (t : Tok) (op : BinOp) : checkEqual C t op s = r → TokenCase C k c s r
  | twoEqual (d : Ch) (t1 t2 : Tok) (o1 o2 : BinOp) : d ≠ 10 → two C d (checkEqual C t1 o1) (checkEqual C t2 o2) s = r → TokenCase C k c s r
  | twoPlain (d : Ch) (t1 t2 : Tok) : d ≠ 10 → two C d (fun s => (t1, s)) (fun s => (t2, s)) s = r → TokenCase C k c s r
  | angle (d : Ch) (op : BinOp) (e p : Vm.CmpOp) : d ≠ 10 → angle C d op e p s = r → TokenCase C k c s r

theorem token_cases {C : Cfg} {k : Nat} {c : Ch} {s : St} {r : Tok × St} (h : token C k c s = some r) : TokenCase C k c s r := by
  unfold token at h
  repeat' (with_reducible refine ite_elim h ?_ ?_ <;> clear h <;> intro h)
  all_goals first
    | with_reducible exact .word h
    | with_reducible exact .number h
    | with_reducible exact .string h
    | (replace h := Option.some.inj h
       first
       | with_reducible exact .equal _ _ h
       | with_reducible exact .angle _ _ _ _ (by decide) h
       | with_reducible exact .twoEqual _ _ _ _ _ (by decide) h
       | with_reducible exact .twoPlain _ _ _ (by decide) h
       | with_reducible exact .plain _ h
       | with_reducible exact .opens _ h
       | with_reducible exact .closes _ h)

/-- A name shorter than the buffer, a keyword, an operator, a number, or a string literal without newlines takes no newline. -/
theorem token_inline (C : Cfg) (hC : 12 ≤ C.maxTok) {k : Nat} {c : Ch} {s s' : St} {t : Tok} (h : token C k c s = some (t, s'))
    (hc : c ≠ 10) (hs : s.text.length = 1) (ht : t.proper = true) (hname : ∀ w, t = .name w → w.length + 1 < C.maxTok)
    (hstr : ∀ b, t = .string b → 10 ∉ s'.text) : Inline s s' := by
  have r1 : s.text.length < C.maxTok := by omega
  have r2 : s.text.length + 1 < C.maxTok := by omega
  have e : ∀ {r : Tok × St}, r = (t, s') → r.2 = s' := fun h => by rw [h]
  rcases token_cases h with h | h | h | ⟨_, h⟩ | ⟨_, h⟩ | ⟨_, h⟩ | ⟨_, _, h⟩ | ⟨_, _, _, _, _, hd, h⟩ | ⟨_, _, _, hd, h⟩ | ⟨_, _, _, _, hd, h⟩
  · exact inline_word hC h hs ht hname
  · exact inline_number h
  · exact inline_string h ht hc hstr
  · rw [← e h]; exact .refl _
  · rw [← e h]; exact inline_open _
  · rw [← e h]; exact inline_close _
  · rw [← e h]; exact inline_checkEqual C _ _ _ r1
  · rw [← e h]; exact inline_two C _ _ _ _ r2 hd (fun _ => inline_checkEqual C _ _ _) (fun _ => inline_checkEqual C _ _ _)
  · rw [← e h]; exact inline_two C _ _ _ _ r2 hd (fun _ _ => .refl _) (fun _ _ => .refl _)
  · rw [← e h]; exact inline_angle C _ _ _ _ _ r2 hd

theorem Blank.append {g h : List Ch} (hg : Blank g) (hh : Blank h) : Blank (g ++ h) := by
  induction hg with
  | nil => exact hh
  | space _ ih => exact .space ih
  | newline _ ih => exact .newline ih
  | @comment body l hb _ ih =>
    have := Blank.comment hb ih
    simpa using this

theorem Blank.spaces (n : Nat) : Blank (List.replicate n 32) := by
  induction n with
  | zero => exact .nil
  | succ n ih => exact .space ih

theorem reads_comment {k : Nat} {s s' : St} (h : comment k s = some s') : ∃ body, 10 ∉ body ∧ Reads (body ++ [10]) s.core s'.core := by
  induction k generalizing s with
  | zero => cases h
  | succ k ih =>
    simp only [comment] at h
    split at h
    · rename_i hc
      cases h
      refine ⟨[], by simp, ?_⟩
      have := Reads.one s.core
      rw [← lexchar_hd, hc, ← lexchar_core] at this
      exact this
    · rename_i hc
      obtain ⟨body, h1, h2⟩ := ih h
      refine ⟨s.core.hd :: body, ?_, .cons (by rw [← lexchar_core]; exact h2)⟩
      rw [lexchar_hd] at hc
      simp [h1, Ne.symm hc]

theorem reads_split {us : List Ch} {d : Ch} {a b : Core} (h : Reads (us ++ [d]) a b) : ∃ m, Reads us a m ∧ d = m.hd ∧ b = m.rd := by
  induction us generalizing a with
  | nil =>
    generalize hl : [] ++ [d] = l at h
    cases h with
    | nil => simp at hl
    | cons h =>
      simp at hl
      obtain ⟨h1, h2⟩ := hl
      subst h2
      cases h
      exact ⟨a, .nil _, h1, rfl⟩
  | cons u us ih =>
    rw [List.cons_append] at h
    generalize hl : u :: (us ++ [d]) = l at h
    cases h with
    | nil => simp at hl
    | cons h =>
      simp only [List.cons.injEq] at hl
      rw [← hl.2] at h
      obtain ⟨m, m1, m2⟩ := ih h
      exact ⟨m, hl.1 ▸ .cons m1, m2⟩

theorem lineStart_gap (C : Cfg) {k : Nat} {c : Ch} {s s' : St} (h : lineStart C k s = some (c, s')) :
    ∃ gap a, Blank gap ∧ Took gap s.core a ∧ c = a.hd ∧ s'.core = a.rd := by
  induction k generalizing s with
  | zero => cases h
  | succ k ih =>
    simp only [lineStart] at h
    split at h
    · cases h
    · rename_i n d s1 hsp
      obtain ⟨hr, -⟩ := reads_spaces hsp
      obtain ⟨m, m1, m2, m3⟩ := reads_split hr
      have hlast : ∃ gap a, Blank gap ∧ Took gap s.core a ∧ d = a.hd ∧ s1.core = a.rd := ⟨_, m, .spaces n, m1.took, m2, m3⟩
      split at h
      · cases h; exact hlast
      · split at h
        · rename_i hc
          obtain ⟨g, a, a1, a2, a3⟩ := ih h
          have hd : d = 10 := by simp at hc; exact hc.2
          exact ⟨_, a, (Blank.append (.spaces n) (.newline .nil)).append a1, (hd ▸ hr.took).trans a2, a3⟩
        · split at h
          · rename_i hd
            split at h
            · cases h
            · rename_i s2 hc
              obtain ⟨body, b1, b2⟩ := reads_comment hc
              obtain ⟨g, a, a1, a2, a3⟩ := ih h
              refine ⟨List.replicate n 32 ++ [35] ++ (body ++ [10]) ++ g, a, ?_, ((hd ▸ hr.took).trans b2.took).trans a2, a3⟩
              have := (Blank.spaces n).append (.comment b1 a1)
              simpa using this
          · cases h; exact hlast

theorem indentation_gap (C : Cfg) {k : Nat} {t : Option Tok} {s s' : St} (h : indentation C k s = some (t, s')) :
    ∃ gap, Blank gap ∧ Took gap s.core s'.core ∧ (s.mid = true → gap = []) := by
  unfold indentation at h
  split at h
  · cases h; exact ⟨[], .nil, .refl _, fun _ => rfl⟩
  · rename_i hmid
    split at h
    · cases h
    · rename_i c s1 hl
      obtain ⟨g, a, a1, a2, a3, a4⟩ := lineStart_gap C hl
      have : Took g s.core (unlexchar c { s1 with mid := true }).core := by
        have := a2.trans (took_peek a)
        rw [List.append_nil] at this
        show Took g s.core (s1.core.un c)
        rw [a4, a3]; exact this
      refine ⟨g, a1, ?_, fun h => absurd h hmid⟩
      dsimp only at h
      split at h
      · split at h
        · cases h; exact this
        · cases h; split <;> exact this
      · cases h; exact this

/-- What a call that returns a token took: blanks, then the token without newlines. -/
theorem lex_gap (C : Cfg) (hC : 12 ≤ C.maxTok) {k : Nat} {t : Tok} {s s' : St} (h : lex C k s = some (t, s')) (ht : t.proper = true)
    (hname : ∀ w, t = .name w → w.length + 1 < C.maxTok) (hstr : ∀ b, t = .string b → 10 ∉ s'.text) :
    ∃ gap c tok, Blank gap ∧ Took (gap ++ c :: tok) s.core s'.core ∧ 10 ∉ c :: tok ∧ c ≠ 32 ∧ c ≠ 35 ∧ c ≠ 0 := by
  induction k generalizing s with
  | zero => cases h
  | succ k ih =>
    simp only [lex] at h
    split at h
    · cases h
    · rename_i hi; cases h
      exfalso
      unfold indentation at hi
      split at hi
      · cases hi
      · split at hi
        · cases hi
        · dsimp only at hi
          split at hi
          · split at hi
            · cases hi; cases ht
            · cases hi
          · cases hi
    · rename_i s1 hi
      obtain ⟨g, g1, g2, -⟩ := indentation_gap C hi
      have hx := exdentation_core s1
      suffices hh : ∃ gap c tok, Blank gap ∧ Took (gap ++ c :: tok) s1.core s'.core ∧ 10 ∉ c :: tok ∧ c ≠ 32 ∧ c ≠ 35 ∧ c ≠ 0 by
        obtain ⟨f, c, tok, f1, f2, f3⟩ := hh
        exact ⟨g ++ f, c, tok, g1.append f1, by rw [List.append_assoc]; exact g2.trans f2, f3⟩
      split at h
      · rename_i he; cases h
        exfalso
        unfold exdentation at he
        split at he
        · split at he
          · cases he; cases ht
          · cases he
        · cases he
      · rename_i s2 he
        rw [he] at hx
        have hx : s2.core = s1.core := hx
        rw [← hx]
        have hroom : (startToken s2).text.length < C.maxTok := by simp [startToken]; omega
        have htk := took_lextoken (C := C) hroom
        rw [startToken_core] at htk
        split at h
        · rename_i hc
          split at h
          · obtain ⟨f, c, tok, f1, f2, f3⟩ := ih h
            refine ⟨10 :: f, c, tok, .newline f1, ?_, f3⟩
            rw [hc] at htk
            exact htk.trans f2
          · cases h; cases ht
        · split at h
          · rename_i hc
            split at h
            · cases h
            · rename_i s3 hcm
              obtain ⟨body, b1, b2⟩ := reads_comment hcm
              obtain ⟨f, c, tok, f1, f2, f3⟩ := ih h
              rw [hc] at htk
              have hp := Reads.took_push b2
              have tot := (htk.trans hp).trans f2
              -- the blanks after the comment start with its newline
              obtain ⟨⟨z, hz⟩, -⟩ := f2
              have hcons : ∃ f', f = 10 :: f' := by
                have h1 : (unlexchar 10 s3).core.pend = 10 :: s3.pend := rfl
                rw [h1] at hz
                cases f with
                | nil =>
                  simp at hz
                  exact absurd (by rw [← hz.1]; simp) f3.1
                | cons d f' => simp at hz; exact ⟨f', by rw [← hz.1]⟩
              obtain ⟨f', rfl⟩ := hcons
              have hb : Blank f' := by
                generalize hl : (10 : Ch) :: f' = l at f1
                cases f1 with
                | nil => cases hl
                | space h => cases hl
                | newline h => cases hl; exact h
                | comment _ _ => cases hl
              refine ⟨35 :: body ++ 10 :: f', c, tok, .comment b1 hb, ?_, f3⟩
              have : [35] ++ body ++ (10 :: f' ++ c :: tok) = 35 :: body ++ 10 :: f' ++ c :: tok := by simp
              rw [← this]; exact tot
          · split at h
            · rename_i hc
              obtain ⟨f, c, tok, f1, f2, f3⟩ := ih h
              refine ⟨32 :: f, c, tok, .space f1, ?_, f3⟩
              rw [hc] at htk
              exact htk.trans f2
            · rename_i h10 h35 h32
              have hne : (lextoken C (startToken s2)).1 ≠ 0 := by
                intro h0
                rw [h0] at h
                simp only [token, if_true] at h
                cases h; cases ht
              have hlen : (lextoken C (startToken s2)).2.text.length = 1 := by
                have ht : (lexchar (startToken s2)).2.text = [] := by unfold lexchar; split <;> rfl
                unfold lextoken addToken at hne ⊢; simp only [ht] at hne ⊢
                have hl : ([] : List Ch).length ≠ C.maxTok := by simp; omega
                rw [if_neg hl] at hne ⊢
                split at hne
                · rename_i hz; rw [if_pos hz]; simp
                · rename_i hz; simp only [ne_eq, Decidable.not_not] at hz; exact absurd hz hne
              obtain ⟨g, k1, k2⟩ := token_inline C hC h h10 hlen ht hname hstr
              exact ⟨[], _, g, .nil, htk.trans k1, by simp [k2, Ne.symm h10], h32, h35, hne⟩

end Snek.Lex
