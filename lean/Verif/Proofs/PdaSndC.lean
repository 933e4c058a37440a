import Verif.Proofs.PdaSndS
/-! What the table-driven parser gets through is a command. -/
namespace Snek.Pda
open Snek.Vm Snek.Lang Snek.Lex Snek.Parse Spec.Syntax

variable {conv : BitVec 32 → BitVec 8} {W : Nat}

theorem snd_formals (hW : 2 ≤ W) : ∀ {n} {stk : List Sym} {s' tl b} {s : PSt},
    Go W conv n (.n .formal :: .n .formalsP :: stk) (s.lk tl b) s' → Fine W tl →
    ∃ p, Ev fun k => formals k (decide (s.nnamed ≠ 0)) tl = some p
  | 0, _, _, _, _, _, h, _ => h.nt0.elim
  | n+1, stk, s', tl, b, s, h, hf => by
    have g := h.nt' (p := [.t .name, .a .formal, .n .optNamedP]) (by cases (hd tl).1 <;> rfl)
    obtain ⟨t, tl, rfl, ht, g⟩ := g.tk
    obtain ⟨t, l⟩ := t
    obtain ⟨x, rfl⟩ := is_name ht
    replace g := g.aE _ _ (formal_ok (z := ⟨W, s.vals.length + 2, s.formals.length + 1⟩) (Nat.lt_succ_self _)) (Nat.le_refl _) (Nat.le_refl _)
    replace g : Go W conv n (.n .optNamedP :: .n .formalsP :: stk) ((s.fm (s.formals ++ [x]) s.nnamed).lk tl b) s' := g.ntU
    have hf1 := hf.suffix suf1
    by_cases ha : ∃ a m u, tl = (.assign a, m) :: u
    · obtain ⟨a, m, u, rfl⟩ := ha
      replace g := (g.ntM (p := [.t .assign, .n (.lvl 0), .a .named]) rfl).tkc.ntU
      obtain ⟨e, rl, e1, su, hf', g⟩ := g.exL hW (by decide) (hf1.suffix suf1)
      replace g := g.aE _ _ (named_ok (z := ⟨W, s.vals.length + 2, (s.formals ++ [x]).length + 1⟩)) (Nat.le_refl _) (Nat.le_refl _)
      by_cases hc : ∃ m u, rl = (.comma, m) :: u
      · obtain ⟨m', v, rfl⟩ := hc
        replace g := (g.ntM (p := [.t .comma, .n .formal, .n .formalsP]) rfl).tkc.ntU
        obtain ⟨⟨xs, ns, r⟩, e2⟩ := snd_formals hW g (hf'.suffix suf1)
        refine ⟨(x :: xs, .cons x e ns, r), (e1.and e2).step fun k hk => ?_⟩
        rw [formals, hk.1]
        have := hk.2
        rw [decide_eq_true (show (s.fm (s.formals ++ [x]) (s.nnamed + 1)).nnamed ≠ 0 from Nat.succ_ne_zero _)] at this
        show (formals k true v >>= _) = _
        rw [this]; rfl
      · refine ⟨([x], .cons x e .nil, rl), e1.step fun k hk => ?_⟩
        rw [formals, hk]
        show (match rl with | (.comma, _) :: ts => _ | ts => _) = _
        split
        · exact (hc ⟨_, _, rfl⟩).elim
        · rfl
    · replace g := g.ntM (prod_optNamedP (fun a => hdL_ne (fun n u e => ha ⟨_, _, _, e⟩) nofun))
      by_cases h0 : s.nnamed = 0
      · replace g := g.aE _ _ (notNamed_ok (z := ⟨W, s.vals.length + 2, (s.formals ++ [x]).length + 1⟩) h0) (Nat.le_refl _) (Nat.le_refl _)
        have hd0 : decide (s.nnamed ≠ 0) = false := decide_eq_false (by simpa using h0)
        rw [hd0]
        by_cases hc : ∃ m u, tl = (.comma, m) :: u
        · obtain ⟨m', v, rfl⟩ := hc
          replace g := (g.ntM (p := [.t .comma, .n .formal, .n .formalsP]) rfl).tkc.ntU
          obtain ⟨⟨xs, ns, r⟩, e2⟩ := snd_formals hW g (hf1.suffix suf1)
          refine ⟨(x :: xs, ns, r), e2.step fun k hk => ?_⟩
          have hk : formals k (decide (s.nnamed ≠ 0)) v = _ := hk
          rw [hd0] at hk
          rw [formals.eq_def]
          show (formals k false v >>= _) = _
          rw [hk]; rfl
        · refine ⟨([x], .nil, tl), Ev.of fun k => ?_⟩
          rw [formals.eq_def]
          split
          · cases ‹k + 1 = 0›
          · rename_i e
            cases e
            exact (ha ⟨_, _, _, rfl⟩).elim
          · rename_i e
            cases e
            refine (if_neg Bool.false_ne_true).trans ?_
            split
            · exact (hc ⟨_, _, rfl⟩).elim
            · rfl
          · rename_i e
            exact (e _ _ _ rfl).elim
      · exact (g.bad (if_pos h0)).elim

theorem snd_optFormals (hW : 2 ≤ W) {n} {stk : List Sym} {s' tl b} {s : PSt}
    (h : Go W conv n (.n .optFormals :: stk) ((s.fm [] 0).lk tl b) s') (hf : Fine W tl) :
    ∃ p, Ev fun k => optFormals k tl = some p := by
  by_cases hx : ∃ x m u, tl = (.name x, m) :: u
  · obtain ⟨x, m, u, rfl⟩ := hx
    exact snd_formals hW ((h.ntM rfl).ntM rfl) hf
  · refine ⟨([], .nil, tl), Ev.of fun k => ?_⟩
    unfold optFormals
    split
    · exact (hx ⟨_, _, _, rfl⟩).elim
    · rfl

theorem snd_command (hW : 2 ≤ W) {n} {stk : List Sym} {s' tl} {s : PSt}
    (h : Go W conv n (.n .command :: stk) (s.lk tl Buf.empty) s') (hf : Fine W tl) : ∃ p, Ev fun k => command k tl = some p := by
  by_cases h1 : ∃ m u, tl = (.kw .def_, m) :: u
  · obtain ⟨m, tl, rfl⟩ := h1
    have g := (h.ntM rfl).tkc
    obtain ⟨t, tl, rfl, ht, g⟩ := g.tkU
    obtain ⟨t, m1⟩ := t
    obtain ⟨x, rfl⟩ := is_name ht
    replace g := g.actU ((s.fm [] 0).with (x :: s.vals)) Buf.empty
        (congrArg ARes.ok (push_room (z := room W s) (v := x) (s := (s.fm [] 0).ul tl (.name x, m1) Buf.empty) (show s.vals.length < s.vals.length + 2 by omega)))
    obtain ⟨t, tl, rfl, ht, g⟩ := g.tkU
    obtain ⟨t, m2⟩ := t
    obtain rfl : t = .op := by simpa [Tm.is] using ht
    have hf3 := ((hf.suffix suf1).suffix suf1).suffix suf1
    replace g := g.ntU
    obtain ⟨⟨xs, ns, rl⟩, e1⟩ := snd_optFormals (s := s.with (x :: s.vals)) hW g hf3
    obtain ⟨V0, F0, D⟩ := g.det
    obtain ⟨k0, ek⟩ := e1
    obtain ⟨su, R⟩ := ok_optFormals (z := ⟨W, max V0 (s.vals.length + 1 + needN ns), max F0 xs.length⟩) (conv := conv) hW (ek k0 (Nat.le_refl _)) hf3
    replace g := D _ _ (Nat.le_max_left ..) (Nat.le_max_left ..) _ _ (R (s.with (x :: s.vals)) _ _ (Nat.le_max_right ..) (Nat.le_max_right ..))
    obtain ⟨t, rl, rfl, ht, g⟩ := g.tk
    obtain ⟨t, m3⟩ := t
    obtain rfl : t = .cp := by simpa [Tm.is] using ht
    obtain ⟨t, rl, rfl, ht, g⟩ := g.tkU
    obtain ⟨t, m4⟩ := t
    obtain rfl : t = .colon := by simpa [Tm.is] using ht
    obtain ⟨⟨y, r⟩, e2⟩ := (sndS hW n).suite g.ntU (((hf3.suffix su).suffix suf1).suffix suf1)
    refine ⟨(.fn x xs ⟨ns, y⟩, r), (Ev.and ⟨k0, ek⟩ e2).mono fun k hk => ?_⟩
    unfold command
    dsimp only
    rw [hk.1]
    show (Parse.suite k rl >>= _) = _
    rw [hk.2]; rfl
  by_cases h2 : ∃ m u, tl = (.kw .import_, m) :: u
  · obtain ⟨m, tl, rfl⟩ := h2
    obtain ⟨t, tl, rfl, ht, g⟩ := (h.ntM rfl).tkc.tkU
    obtain ⟨t, m1⟩ := t
    obtain ⟨x, rfl⟩ := is_name ht
    exact ⟨_, Ev.of fun k => rfl⟩
  by_cases h3 : ∃ m u, tl = (.kw .from_, m) :: u
  · obtain ⟨m, tl, rfl⟩ := h3
    obtain ⟨t, tl, rfl, ht, g⟩ := (h.ntM rfl).tkc.tkU
    obtain ⟨t, m1⟩ := t
    obtain ⟨x, rfl⟩ := is_name ht
    obtain ⟨t, tl, rfl, ht, g⟩ := g.tkU
    obtain ⟨t, m2⟩ := t
    obtain rfl : t = .kw .import_ := by simpa [Tm.is] using ht
    obtain ⟨t, tl, rfl, ht, g⟩ := g.tkU
    obtain ⟨t, m2⟩ := t
    exact ⟨_, Ev.of fun k => if_pos ht⟩
  · have g := h.ntM (prod_command (hdL_ne (fun n u e => h1 ⟨_, _, e⟩) nofun) (hdL_ne (fun n u e => h2 ⟨_, _, e⟩) nofun)
      (hdL_ne (fun n u e => h3 ⟨_, _, e⟩) nofun))
    obtain ⟨⟨x, r⟩, e⟩ := (sndS hW n).stat g hf
    refine ⟨(.stat x, r), e.mono fun k hk => ?_⟩
    unfold command
    split
    · exact (h1 ⟨_, _, rfl⟩).elim
    · exact (h2 ⟨_, _, rfl⟩).elim
    · exact (h3 ⟨_, _, rfl⟩).elim
    · exact (h1 ⟨_, _, rfl⟩).elim
    · exact (h2 ⟨_, _, rfl⟩).elim
    · exact (h3 ⟨_, _, rfl⟩).elim
    · rw [hk]; rfl

/-- A command the parser gets through, with nothing else on its stack. -/
theorem Go.command (hW : 2 ≤ W) {n s' tl} {s : PSt} (h : Go W conv n [.n .command] (s.lk tl Buf.empty) s') (hf : Fine W tl) (hd : s.fd = 0) :
    ∃ c rl, (Ev fun k => command k tl = some (c, rl)) ∧ rl <:+ tl ∧ ∃ (s1 : PSt) (m : Option LT), s1.fd = 0 ∧
      s1.out = s.out ++ codeOf W conv c ∧ s' = s1.en rl m Buf.empty := by
  obtain ⟨⟨c, rl⟩, k, e⟩ := snd_command hW h hf
  obtain ⟨V0, F0, D⟩ := h.det
  obtain ⟨su, m, R⟩ := ok_command (z := ⟨W, max V0 (s.vals.length + needCmd c), max F0 (formalsOf c)⟩) (conv := conv) hW (e k (Nat.le_refl k)) hf
  obtain ⟨s1, d1, _, o1, R⟩ := R s [] hd (Nat.le_max_right ..) (Nat.le_max_right ..)
  have g := D _ _ (Nat.le_max_left ..) (Nat.le_max_left ..) _ _ R
  refine ⟨c, rl, ⟨k, e⟩, su, s1, m, d1, o1, ?_⟩
  cases g
  rfl

end Snek.Pda
