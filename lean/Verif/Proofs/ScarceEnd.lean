import Verif.Proofs.ScarceInv
/-! # What is executed when memory was refused -/
namespace Snek.Scarce
open Snek.Vm Snek.Lang Snek.Lex Snek.Parse Snek.Pda

variable {z : Sizes} {conv : BitVec 32 → BitVec 8} {g : Nat → Bool} {junk : MSt → Nat → UInt8} {P : Nat}

theorem reset_ls {m : MSt} : m.reset.s.ts = m.s.ts ∧ m.reset.s.la = m.s.la ∧ m.reset.s.out = m.s.out ∧ m.reset.s.buf = Buf.empty ∧
    m.reset.fail = m.fail ∧ m.reset.lost = m.lost := ⟨rfl, rfl, rfl, rfl, rfl, rfl⟩

/-- The end of a statement. -/
theorem finish_frame {m m' : MSt} (h : actM z conv g junk .finish m = .ok m') :
    m'.s.ts = m.s.ts ∧ m'.s.la = m.s.la ∧ (m.fail = true → m'.fail = true) ∧ m'.lost = m.lost ∧ m'.s.buf = Buf.empty ∧
    ((m'.s.out = m.s.out ++ [.stat m.s.buf.bytes] ∧ m'.fail = m.fail) ∨ (m'.s.out = m.s.out ∧ m'.fail = true)) ∧ (J g m → J g m') ∧ (K m → K m') := by
  simp only [actM] at h
  split at h
  · rename_i e
    cases h
    exact ⟨rfl, rfl, id, rfl, rfl, .inl ⟨by rw [e], rfl⟩, id, id⟩
  · split at h
    · rename_i e
      cases h
      exact ⟨rfl, rfl, id, rfl, rfl, .inl ⟨rfl, rfl⟩, fun h => h.grant rfl rfl e, id⟩
    · rename_i e
      cases h
      exact ⟨rfl, rfl, fun _ => rfl, rfl, rfl, .inr ⟨rfl, rfl⟩, fun _ => J.refuse m.asks (by simp [MSt.refused, MSt.reset]) rfl (by simpa using e), fun _ _ => rfl⟩

/-- The end of a function. -/
theorem defEnd_frame {m m' : MSt} (h : actM z conv g junk .defEnd m = .ok m') :
    m'.s.ts = m.s.ts ∧ m'.s.la = m.s.la ∧ (m.fail = true → m'.fail = true) ∧ m'.lost = m.lost ∧ m'.s.buf = Buf.empty ∧
    (m'.s.out = m.s.out ∨ ∃ id fs nn c, m'.s.out = m.s.out ++ [.fn id fs nn c]) ∧ (J g m → J g m') ∧ (K m → K m') := by
  simp only [actM] at h
  generalize hm1 : (if (m.byte junk m.s.buf.prev).toNat = 65 then m.deletePrev else m.emit g 67 []) = m1 at h
  have f : m1.s.ts = m.s.ts ∧ m1.s.la = m.s.la ∧ (m.fail = true → m1.fail = true) ∧ m1.lost = m.lost ∧ m1.s.out = m.s.out ∧
      (J g m → J g m1) ∧ (K m → K m1) := by
    subst hm1
    split
    · exact ⟨rfl, rfl, id, rfl, rfl, id, id⟩
    · have := fr_emit (z := z) (g := g) (m := m) (o := 67) (args := [])
      refine ⟨this.ts, this.la, this.fail, ?_, this.out, this.asks, this.stray⟩
      simp only [MSt.emit, List.foldl_nil, MSt.op, MSt.ext]
      split
      · split <;> rfl
      · rfl
  obtain ⟨f1, f2, f3, f4, f5, f6, f7⟩ := f
  split at h
  · cases h
    exact ⟨f1, f2, f3, f4, rfl, .inl f5, f6, f7⟩
  · split at h
    · rename_i e
      split at h
      · rename_i e'
        unfold MSt.pop at h
        split at h
        · cases h
        · cases h
          refine ⟨f1, f2, f3, f4, rfl, .inr ⟨_, _, _, _, by rw [← f5]⟩, fun h => ?_, f7⟩
          have h1 : J g { m1 with asks := m1.asks + 1 } := (f6 h).grant rfl rfl e
          exact h1.grant rfl rfl e'
      · rename_i e'
        cases h
        exact ⟨f1, f2, fun _ => rfl, f4, rfl, .inl f5, fun _ => J.refuse (m1.asks + 1) (by simp) rfl (by simpa using e'), fun _ _ => rfl⟩
    · rename_i e
      cases h
      exact ⟨f1, f2, fun _ => rfl, f4, rfl, .inl f5, fun _ => J.refuse m1.asks (by simp [MSt.refused, MSt.reset]) rfl (by simpa using e), fun _ _ => rfl⟩

/-- Without a refusal, the end of a function passes it on. -/
theorem defEnd_buf {m m' : MSt} (h : actM z conv g junk .defEnd m = .ok m') : m'.s.buf = Buf.empty := (defEnd_frame h).2.2.2.2.1

/-- What an action keeps whatever the code is. -/
structure Kp (g : Nat → Bool) (m m' : MSt) : Prop where
  ts : m'.s.ts = m.s.ts
  la : m'.s.la = m.s.la
  out : m'.s.out = m.s.out
  fail : m.fail = true → m'.fail = true
  lost : m'.lost = false → m.lost = false
  asks : J g m → J g m'
  stray : K m → K m'

theorem Fr.kp {m m' : MSt} (f : Fr z g m m') : Kp g m m' := ⟨f.ts, f.la, f.out, f.fail, f.lost, f.asks, f.stray⟩

theorem Kp.trans {a b c : MSt} (f : Kp g a b) (h : Kp g b c) : Kp g a c :=
  ⟨h.ts.trans f.ts, h.la.trans f.la, h.out.trans f.out, fun x => h.fail (f.fail x), fun x => f.lost (h.lost x), fun x => h.asks (f.asks x), fun x => h.stray (f.stray x)⟩

theorem act_keep {x : Act} {m m' : MSt} (h : actM z conv g junk x m = .ok m') (h1 : x ≠ .finish) (h2 : x ≠ .defEnd) : Kp g m m' := by
  by_cases hx : x = .cmpLink
  · subst hx
    simp only [actM] at h
    split at h
    · cases h
    · rename_i off vs e
      cases h
      refine Kp.trans ?_ (fr_pushPrev.trans fr_push : Fr z g _ _).kp
      split
      · exact Kp.trans (⟨rfl, rfl, rfl, id, id, id, id⟩ : Kp g m m.deletePrev) (fr_forward : Fr z g _ _).kp
      · exact ⟨rfl, rfl, rfl, id, id, id, id⟩
  · exact (act_frame h h1 h2 fun hc => absurd hc hx).kp

/-- A comparison can be linked. -/
def Wc (z : Sizes) (m : MSt) : Prop := m.s.vals.head? = some 0 ∨ 1 + z.W ≤ m.s.buf.prev

/-- While a statement is read: its code begins with a whole line instruction; or it has none yet; or the line instruction was refused, and
there are more tokens than the one that may have been looked at. -/
def Stat (z : Sizes) (k : List Sym) (m : MSt) : Prop :=
  (LS z.W m.s.buf ∧ (topW k = true → Wc z m)) ∨
  (m.s.buf.bytes = [] ∧ m.s.buf.prev = 0 ∧ m.fail = false ∧ early k = true) ∨
  (m.fail = true ∧ 2 ≤ need k + if m.s.la then 0 else 1)

def Here (z : Sizes) (k : List Sym) (m : MSt) : Mk → Prop
  | .stat => Stat z k m
  | .fn => True
  | .top => m.s.buf.bytes = [] ∧ m.s.buf.prev = 0 ∧ plainT k = true ∧ (m.fail = true → m.s.la = false ∧ ∃ k1, k = .n .start :: k1)
  | .none => k = [] ∧ m.fail = false

structure Inv (z : Sizes) (k : List Sym) (m : MSt) : Prop where
  adj : adj k = true
  low : topL k = true → m.s.la = false
  here : Here z k m (marker k)

theorem adj_tail {x : Sym} {k} (h : adj (x :: k) = true) : adj k = true := by
  cases k with
  | nil => rfl
  | cons y k => rw [adj_cons, Bool.and_eq_true] at h; exact h.2

theorem marker_act {x : Act} {k} (h1 : x ≠ .finish) (h2 : x ≠ .defEnd) : marker (.a x :: k) = marker k := by
  cases x <;> first | rfl | exact absurd rfl h1 | exact absurd rfl h2

theorem need_act {x : Act} {k} (h1 : x ≠ .finish) (h2 : x ≠ .defEnd) : need (.a x :: k) = need k := by
  cases x <;> first | (simp [need, ml]; done) | exact absurd rfl h1 | exact absurd rfl h2

theorem need_nt {x : NT} {k} (h1 : x ≠ .start) (h2 : x ≠ .command) : need (.n x :: k) = ml (.n x) + need k := by
  cases x <;> first | rfl | exact absurd rfl h1 | exact absurd rfl h2

theorem marker_nt {x : NT} {k} (h1 : x ≠ .start) (h2 : x ≠ .command) : marker (.n x :: k) = marker k := by
  cases x <;> first | rfl | exact absurd rfl h1 | exact absurd rfl h2

/-- After the end of a command comes the next one. -/
theorem after_end {x : Sym} {k} (hx : x = .a .defEnd ∨ x = .a .finish ∨ x = .n .command) (h : adj (x :: k) = true) : ∃ k1, k = .n .start :: k1 := by
  cases k with
  | nil => rcases hx with rfl | rfl | rfl <;> simp [adj] at h
  | cons y k =>
    rw [adj_cons, Bool.and_eq_true] at h
    refine ⟨k, ?_⟩
    have h := h.1
    rcases hx with rfl | rfl | rfl <;> simp [pairOk] at h <;> rw [h.1.1.1.1.1]

/-- The only action above the end of a function is the end of its block. -/
theorem above_low {x : Act} {k} (h : adj (.a x :: k) = true) (ht : topL k = true) : x = .exdent := by
  cases k with
  | nil => cases ht
  | cons y k =>
    rw [topL_cons] at ht
    rw [adj_cons, Bool.and_eq_true] at h
    have h := h.1
    simp [pairOk] at h ht
    rcases ht with rfl | rfl <;> simp at h
    exact h.2

theorem above_topW {x : Act} {k} (h : adj (.a x :: k) = true) (ht : topW k = true) : x = .push0 ∨ x = .binopSecond := by
  cases k with
  | nil => cases ht
  | cons y k =>
    rw [topW_cons] at ht
    rw [adj_cons, Bool.and_eq_true] at h
    have h := h.1
    simp [pairOk] at h ht
    rcases ht with (rfl | rfl) | rfl <;> simp at h
    exact h.2

theorem topW_act {x : Act} {k} : topW (.a x :: k) = (x == .cmpLink) := by cases x <;> rfl

/-- `push0` and `binopSecond` leave a comparison that can be linked. -/
theorem wc_push0 {m m' : MSt} (h : actM z conv g junk .push0 m = .ok m') (hl : m'.lost = false) : Wc z m' := by
  simp only [actM] at h
  cases h
  simp only [MSt.push, Bool.or_eq_false_iff, decide_eq_false_iff_not] at hl
  refine .inl ?_
  simp only [MSt.push, PSt.push]
  rw [if_neg (by omega)]
  rfl

theorem ext_prev {m : MSt} {l} : (m.ext g l).s.buf.prev = m.s.buf.prev := by
  unfold MSt.ext
  split
  · split <;> rfl
  · rfl

theorem wc_binopSecond {m m' : MSt} (h : actM z conv g junk .binopSecond m = .ok m') (hs : LS z.W m.s.buf) : Wc z m' := by
  simp only [actM, MSt.pop] at h
  split at h
  · cases h
  · cases h
    refine .inr ?_
    simp only [MSt.emit, List.foldl_nil, MSt.op, ext_prev]
    exact hs.long

/-- The first line instruction of a statement. -/
theorem first_line {m : MSt} (hb : m.s.buf.bytes = []) (hp : m.s.buf.prev = 0) (hf : (m.emit g 66 [leBytes z.W m.s.line]).fail = false) :
    LS z.W (m.emit g 66 [leBytes z.W m.s.line]).s.buf := by
  rw [emit_s hf]
  refine ⟨⟨66, leBytes z.W m.s.line, by simp [PSt.code, addRaw, hb], rfl⟩, ?_, .inl (by simp [PSt.code, addRaw, hb]), .inl hp⟩
  simp [PSt.code, addRaw, hb, leBytes_length]
  omega

theorem early_act {x : Act} {k} (h : early (.a x :: k) = true) (hx : x ≠ .finish) : x = .addLine ∧ 2 ≤ need k := by
  unfold early at h
  split at h
  all_goals first | (rename_i e; cases e; done) | skip
  · rename_i e; cases e; exact absurd rfl hx
  · rename_i e; cases e; exact ⟨rfl, by simp [need, ml]⟩
  · rename_i e; cases e; exact ⟨rfl, by simp [need, ml]⟩
  · cases h

theorem early_nt {x : NT} {k r} {t} (h : early (.n x :: k) = true) (hp : Pda.prod x t = some r) : early (r ++ k) = true := by
  unfold early at h
  split at h
  all_goals first | (rename_i e; cases e; done) | skip
  · rename_i e
    cases e
    unfold Pda.prod at hp
    split at hp
    all_goals first | (rename_i e _; cases e; done) | (rename_i e; cases e; done) | skip
    all_goals first | (cases hp; rfl) | skip
    all_goals (exfalso; simp_all)
  · rename_i e
    cases e
    cases hp
    rfl
  · cases h

theorem early_tok {x : Tm} {k} (h : early (.t x :: k) = true) : early k = true := by
  unfold early at h
  split at h
  all_goals first | (rename_i e; cases e; done) | skip
  · rename_i e; cases e; rfl
  · cases h

theorem plain_tok {x : Tm} {k} (h : plainT (.t x :: k) = true) : plainT k = true := h

theorem plain_act {x : Act} {k} : plainT (.a x :: k) = false := rfl

theorem plain_nt {x : NT} {k} (h : plainT (.n x :: k) = true) : x = .start ∨ x = .command := by
  unfold plainT at h
  split at h
  all_goals first | (rename_i e; cases e; simp; done) | skip
  · rename_i e; cases e
  · cases h

theorem marker_start {k} : marker (.n .start :: k) = .top := rfl

theorem step_act_inv {x : Act} {k k' : List Sym} {m m' : MSt} (h : stepM z conv g junk P (.a x :: k) m = .next k' m') (hl : m'.lost = false)
    (hi : Inv z (.a x :: k) m) : Inv z k' m' := by
  simp only [stepM] at h
  cases ea : actM z conv g junk x m with
  | «syntax» => rw [ea] at h; cases h
  | fault => rw [ea] at h; cases h
  | ok m1 =>
    rw [ea] at h
    dsimp only at h
    split at h
    · cases h
    rename_i hnf
    cases h
    by_cases h1 : x = .finish
    · subst h1
      obtain ⟨k1, rfl⟩ := after_end (.inr (.inl rfl)) hi.adj
      obtain ⟨a, b, c, d, e, f, _⟩ := finish_frame ea
      have nf : m'.fail ≠ true := fun hc => hnf ⟨rfl, hc⟩
      refine ⟨adj_tail hi.adj, fun hc => by rw [topL_cons] at hc; simp at hc, ?_⟩
      rw [marker_start]
      exact ⟨by rw [e]; rfl, by rw [e]; rfl, rfl, fun hc => absurd hc nf⟩
    · by_cases h2 : x = .defEnd
      · subst h2
        obtain ⟨k1, rfl⟩ := after_end (.inl rfl) hi.adj
        obtain ⟨a, b, c, d, e, f, _⟩ := defEnd_frame ea
        refine ⟨adj_tail hi.adj, fun hc => by rw [topL_cons] at hc; simp at hc, ?_⟩
        rw [marker_start]
        exact ⟨by rw [e]; rfl, by rw [e]; rfl, rfl, fun _ => ⟨by rw [b]; exact hi.low rfl, k1, rfl⟩⟩
      · have hh := hi.here
        rw [marker_act h1 h2] at hh
        have low : topL k = true → m'.s.la = false := fun hc => by
          have := above_low hi.adj hc
          subst this
          rw [(act_frame ea (by nofun) (by nofun) nofun).la]
          exact hi.low rfl
        refine ⟨adj_tail hi.adj, low, ?_⟩
        cases hk : marker k with
        | fn => trivial
        | top => rw [hk] at hh; exact absurd hh.2.2.1 (by rw [plain_act]; simp)
        | none => rw [hk] at hh; cases hh.1
        | stat =>
          rw [hk] at hh
          show Stat z k m'
          rcases hh with ⟨s1, s2⟩ | ⟨s1, s2, s3, s4⟩ | ⟨s1, s2⟩
          · have fr := act_frame ea h1 h2 fun hc _ => s2 (by rw [topW_act, hc]; rfl)
            refine .inl ⟨fr.ls s1, fun hw => ?_⟩
            rcases above_topW hi.adj hw with rfl | rfl
            · exact wc_push0 ea hl
            · exact wc_binopSecond ea s1
          · obtain ⟨rfl, e2⟩ := early_act s4 h1
            simp only [actM] at ea
            cases ea
            by_cases hf : (m.emit g 66 [leBytes z.W m.s.line]).fail = true
            · exact .inr (.inr ⟨hf, by omega⟩)
            · refine .inl ⟨first_line s1 s2 (by simpa using hf), fun hw => ?_⟩
              have := above_topW hi.adj hw
              simp at this
          · have fr := act_keep ea h1 h2
            refine .inr (.inr ⟨fr.fail s1, ?_⟩)
            rw [need_act h1 h2] at s2
            rw [fr.la]
            exact s2

theorem step_tok_inv {x : Tm} {k k' : List Sym} {m m' : MSt} (h : stepM z conv g junk P (.t x :: k) m = .next k' m')
    (hi : Inv z (.t x :: k) m) : Inv z k' m' := by
  simp only [stepM] at h
  have hm : marker (.t x :: k) = marker k := rfl
  have hn : need (.t x :: k) = 1 + need k := rfl
  split at h
  · rename_i hla
    split at h
    · cases h
      refine ⟨adj_tail hi.adj, fun _ => rfl, ?_⟩
      have hh := hi.here
      rw [hm] at hh
      cases hk : marker k with
      | fn => trivial
      | top =>
        rw [hk] at hh
        exact ⟨hh.1, hh.2.1, hh.2.2.1, fun hc => by obtain ⟨_, k1, e⟩ := hh.2.2.2 hc; cases e⟩
      | none => rw [hk] at hh; cases hh.1
      | stat =>
        rw [hk] at hh
        rcases hh with ⟨s1, s2⟩ | ⟨s1, s2, s3, s4⟩ | ⟨s1, s2⟩
        · refine .inl ⟨s1, fun hw => ?_⟩
          cases k with
          | nil => cases hw
          | cons y k =>
            have ha := hi.adj
            rw [adj_cons, Bool.and_eq_true] at ha
            have ha := ha.1
            rw [topW_cons] at hw
            simp [pairOk] at ha hw
            rcases hw with (rfl | rfl) | rfl <;> simp at ha
            subst ha
            exact s2 rfl
        · exact .inr (.inl ⟨s1, s2, s3, early_tok s4⟩)
        · refine .inr (.inr ⟨s1, ?_⟩)
          rw [hn, hla] at s2
          simp at s2 ⊢
          omega
    · cases h
  · rename_i hla
    split at h
    · cases h
    · rename_i hf
      cases h
      refine ⟨hi.adj, fun hc => by rw [topL_cons] at hc; simp at hc, ?_⟩
      have hh := hi.here
      cases hk : marker (.t x :: k) with
      | fn => trivial
      | top =>
        rw [hk] at hh
        exact ⟨hh.1, hh.2.1, hh.2.2.1, fun hc => absurd hc hf⟩
      | none => rw [hk] at hh; cases hh.1
      | stat =>
        rw [hk] at hh
        rcases hh with ⟨s1, s2⟩ | ⟨s1, s2, s3, s4⟩ | ⟨s1, s2⟩
        · exact .inl ⟨s1, s2⟩
        · exact .inr (.inl ⟨s1, s2, s3, s4⟩)
        · exact absurd s1 hf

theorem step_nt_inv {x : NT} {k k' : List Sym} {m m' : MSt} (h : stepM z conv g junk P (.n x :: k) m = .next k' m')
    (hi : Inv z (.n x :: k) m) : Inv z k' m' := by
  simp only [stepM] at h
  split at h
  · rename_i hla
    cases ep : Pda.prod x (hd m.s.ts).1 with
    | none => rw [ep] at h; cases h
    | some r =>
      rw [ep] at h
      dsimp only at h
      split at h
      · cases h
        obtain ⟨f1, f2, f3, f4⟩ := prod_fits ep hi.adj
        refine ⟨f1, fun hc => (by rw [f2] at hc; cases hc), ?_⟩
        have hh := hi.here
        by_cases h1 : x = .start
        · subst h1
          have hh : Here z _ m .top := hh
          obtain ⟨t1, t2, t3, t4⟩ := hh
          have nf : m.fail = false := by
            cases hf : m.fail with
            | false => rfl
            | true => have := (t4 hf).1; rw [hla] at this; cases this
          unfold Pda.prod at ep
          split at ep
          all_goals first | (rename_i e _; cases e; done) | (rename_i e; cases e; done) | skip
          · cases ep
            cases k with
            | nil => exact ⟨rfl, nf⟩
            | cons y k =>
              have := hi.adj
              rw [adj_cons, Bool.and_eq_true] at this
              simp [pairOk] at this
          · cases ep
            exact ⟨t1, t2, rfl, fun hc => by rw [nf] at hc; cases hc⟩
          all_goals (exfalso; simp_all)
        · by_cases h2 : x = .command
          · subst h2
            have hh : Here z _ m .top := hh
            obtain ⟨t1, t2, t3, t4⟩ := hh
            have nf : m.fail = false := by
              cases hf : m.fail with
              | false => rfl
              | true => obtain ⟨_, k1, e⟩ := t4 hf; cases e
            obtain ⟨k1, rfl⟩ := after_end (.inr (.inr rfl)) hi.adj
            unfold Pda.prod at ep
            split at ep
            all_goals first | (rename_i e _; cases e; done) | (rename_i e; cases e; done) | skip
            all_goals first
              | (cases ep; trivial)
              | (cases ep; exact ⟨t1, t2, rfl, fun hc => by rw [nf] at hc; cases hc⟩)
              | (cases ep; exact .inr (.inl ⟨t1, t2, nf, rfl⟩))
              | skip
            all_goals (exfalso; simp_all)
          · obtain ⟨e1, e2⟩ := f4 h1 h2
            rw [← e1] at hh
            cases hk : marker (r ++ k) with
            | fn => trivial
            | top => rw [hk] at hh; rcases plain_nt hh.2.2.1 with e | e <;> contradiction
            | none => rw [hk] at hh; cases hh.1
            | stat =>
              rw [hk] at hh
              rcases hh with ⟨s1, s2⟩ | ⟨s1, s2, s3, s4⟩ | ⟨s1, s2⟩
              · exact .inl ⟨s1, fun hw => s2 (f3 hw)⟩
              · exact .inr (.inl ⟨s1, s2, s3, early_nt s4 ep⟩)
              · exact .inr (.inr ⟨s1, by omega⟩)
      · cases h
  · rename_i hla
    split at h
    · cases h
    · rename_i hf
      cases h
      refine ⟨hi.adj, fun hc => by rw [topL_cons] at hc; simp at hc, ?_⟩
      have hh := hi.here
      cases hk : marker (.n x :: k) with
      | fn => trivial
      | top =>
        rw [hk] at hh
        exact ⟨hh.1, hh.2.1, hh.2.2.1, fun hc => absurd hc hf⟩
      | none => rw [hk] at hh; cases hh.1
      | stat =>
        rw [hk] at hh
        rcases hh with ⟨s1, s2⟩ | ⟨s1, s2, s3, s4⟩ | ⟨s1, s2⟩
        · exact .inl ⟨s1, s2⟩
        · exact .inr (.inl ⟨s1, s2, s3, s4⟩)
        · exact absurd s1 hf

/-- The invariant is kept. -/
theorem step_inv {k k' : List Sym} {m m' : MSt} (h : stepM z conv g junk P k m = .next k' m') (hl : m'.lost = false) (hi : Inv z k m) :
    Inv z k' m' := by
  cases k with
  | nil => cases h
  | cons x k =>
    cases x with
    | a x => exact step_act_inv h hl hi
    | t x => exact step_tok_inv h hi
    | n x => exact step_nt_inv h hi

end Snek.Scarce
