import Verif.Proofs.ScarceEnd
import Verif.Spec.Scarce
/-! # Whole runs in which memory is refused -/
namespace Snek.Scarce
open Snek.Vm Snek.Lang Snek.Lex Snek.Parse Snek.Pda

variable {z : Sizes} {conv : BitVec 32 → BitVec 8} {g : Nat → Bool} {junk : MSt → Nat → UInt8} {P : Nat}

theorem runM_next {n k m k1 m1} (h : stepM z conv g junk P k m = .next k1 m1) : runM z conv g junk P (n + 1) k m = runM z conv g junk P n k1 m1 := by
  simp only [runM, h]

theorem runM_stop {n k m r} (h : stepM z conv g junk P k m = r) (hr : ∀ k1 m1, r ≠ .next k1 m1) : runM z conv g junk P (n + 1) k m = some r := by
  simp only [runM, h]

/-- What every step keeps. -/
structure Along (g : Nat → Bool) (m m' : MSt) : Prop where
  fail : m.fail = true → m'.fail = true
  lost : m'.lost = false → m.lost = false
  asks : J g m → J g m'
  stray : K m → K m'

theorem Along.refl (m : MSt) : Along g m m := ⟨id, id, id, id⟩

theorem act_along {x : Act} {m m' : MSt} (h : actM z conv g junk x m = .ok m') : Along g m m' := by
  by_cases h1 : x = .finish
  · subst h1
    obtain ⟨_, _, a, b, _, _, c, d⟩ := finish_frame h
    exact ⟨a, by rw [b]; exact id, c, d⟩
  · by_cases h2 : x = .defEnd
    · subst h2
      obtain ⟨_, _, a, b, _, _, c, d⟩ := defEnd_frame h
      exact ⟨a, by rw [b]; exact id, c, d⟩
    · have := act_keep h h1 h2
      exact ⟨this.fail, this.lost, this.asks, this.stray⟩

theorem step_along (k : List Sym) (m : MSt) : Along g m (stepM z conv g junk P k m).st := by
  cases k with
  | nil => exact Along.refl m
  | cons x k =>
    cases x with
    | a x =>
      simp only [stepM]
      cases e : actM z conv g junk x m with
      | ok m1 =>
        dsimp only
        split <;> exact act_along e
      | «syntax» => exact Along.refl m
      | fault => exact Along.refl m
    | t x =>
      simp only [stepM]
      repeat' split
      all_goals exact ⟨id, id, id, id⟩
    | n x =>
      simp only [stepM]
      repeat' split
      all_goals exact ⟨id, id, id, id⟩

theorem run_along : ∀ (n : Nat) (k : List Sym) (m : MSt) {r}, runM z conv g junk P n k m = some r → Along g m r.st := by
  intro n
  induction n with
  | zero => intro k m r h; cases h
  | succ n ih =>
    intro k m r h
    have s := step_along (z := z) (conv := conv) (g := g) (junk := junk) (P := P) k m
    cases e : stepM z conv g junk P k m with
    | next k1 m1 =>
      rw [runM_next e] at h
      rw [e] at s
      have t := ih _ _ h
      exact ⟨fun x => t.fail (s.fail x), fun x => s.lost (t.lost x), fun x => t.asks (s.asks x), fun x => t.stray (s.stray x)⟩
    | _ =>
      rw [runM_stop e nofun] at h
      cases h
      rw [e] at s
      exact s

theorem ls_ran {W : Nat} {b : Buf} (h : LS W b) : ∃ n, ranAborted W b.bytes = [.line n] := by
  obtain ⟨c, r, e, e2⟩ := h.first
  unfold ranAborted
  rw [e]
  simp [fetch, e2]

/-- Does the result report success? -/
def MOut.isDone : MOut → Bool
  | .done _ => true
  | _ => false

/-- One step in which or before which memory was refused. -/
theorem step_failed {k : List Sym} {m : MSt} (hf : (stepM z conv g junk P k m).st.fail = true) (hi : Inv z k m) :
    (∃ k1 m1, stepM z conv g junk P k m = .next k1 m1 ∧ m1.s.out = m.s.out) ∨
    (∃ k1 m1 l, stepM z conv g junk P k m = .next (.n .start :: k1) m1 ∧ m1.s.la = false ∧ m1.fail = true ∧ m1.s.out = m.s.out ++ l ∧ Last z.W l) ∨
    (∃ l, (stepM z conv g junk P k m).isDone = false ∧ (∀ k1 m1, stepM z conv g junk P k m ≠ .next k1 m1) ∧
      (stepM z conv g junk P k m).st.s.out = m.s.out ++ l ∧ Last z.W l) := by
  cases k with
  | nil => have : Here z [] m .none := hi.here; have hf : m.fail = true := hf; rw [this.2] at hf; cases hf
  | cons x k =>
    cases x with
    | a x =>
      simp only [stepM] at hf ⊢
      cases e : actM z conv g junk x m with
      | ok m1 =>
        rw [e] at hf
        dsimp only at hf ⊢
        have f1 : m1.fail = true := by
          split at hf <;> exact hf
        by_cases h1 : x = .finish
        · subst h1
          obtain ⟨_, _, a, _, _, b, _⟩ := finish_frame e
          rw [if_pos ⟨rfl, f1⟩]
          refine .inr (.inr ?_)
          rcases b with ⟨b, b2⟩ | ⟨b, _⟩
          · refine ⟨_, rfl, nofun, b, ?_⟩
            have hh : Stat z _ m := hi.here
            rcases hh with ⟨s1, s2⟩ | ⟨s1, s2, s3, s4⟩ | ⟨s1, s2⟩
            · obtain ⟨n, hn⟩ := ls_ran s1
              exact .line _ n hn
            · rw [b2, s3] at f1; cases f1
            · simp [need] at s2
              split at s2 <;> omega
          · exact ⟨[], rfl, nofun, by rw [List.append_nil]; exact b, .nothing⟩
        · rw [if_neg fun hc => h1 hc.1]
          by_cases h2 : x = .defEnd
          · subst h2
            obtain ⟨_, c, a, _, _, b, _⟩ := defEnd_frame e
            obtain ⟨k1, rfl⟩ := after_end (.inl rfl) hi.adj
            refine .inr (.inl ⟨k1, m1, ?_⟩)
            rcases b with b | ⟨id, fs, nn, co, b⟩
            · exact ⟨[], rfl, by rw [c]; exact hi.low rfl, f1, by rw [List.append_nil]; exact b, .nothing⟩
            · exact ⟨_, rfl, by rw [c]; exact hi.low rfl, f1, b, .func ..⟩
          · exact .inl ⟨_, _, rfl, (act_keep e h1 h2).out⟩
      | «syntax» => exact .inr (.inr ⟨[], rfl, nofun, (List.append_nil _).symm, .nothing⟩)
      | fault => exact .inr (.inr ⟨[], rfl, nofun, (List.append_nil _).symm, .nothing⟩)
    | t x =>
      simp only [stepM]
      repeat' split
      all_goals first
        | exact .inl ⟨_, _, rfl, rfl⟩
        | exact .inr (.inr ⟨[], rfl, nofun, (List.append_nil _).symm, .nothing⟩)
    | n x =>
      simp only [stepM]
      repeat' split
      all_goals first
        | exact .inl ⟨_, _, rfl, rfl⟩
        | exact .inr (.inr ⟨[], rfl, nofun, (List.append_nil _).symm, .nothing⟩)

/-- The rest of the run after memory was refused. -/
theorem run_failed : ∀ (n : Nat) (k : List Sym) (m : MSt) {r}, m.fail = true → Inv z k m → runM z conv g junk P n k m = some r → r.st.lost = false →
    r.isDone = false ∧ ∃ l, r.st.s.out = m.s.out ++ l ∧ Last z.W l := by
  intro n
  induction n with
  | zero => intro k m r _ _ h; cases h
  | succ n ih =>
    intro k m r hf hi h hl
    have key : ∀ k1 m1, stepM z conv g junk P k m = .next k1 m1 → m1.fail = true ∧ Inv z k1 m1 := fun k1 m1 e => by
      have s := step_along (z := z) (conv := conv) (g := g) (junk := junk) (P := P) k m
      rw [e] at s
      rw [runM_next e] at h
      exact ⟨s.fail hf, step_inv e ((run_along n k1 m1 h).lost hl) hi⟩
    rcases step_failed ((step_along (g := g) k m).fail hf) hi (conv := conv) (g := g) (junk := junk) (P := P) with ⟨k1, m1, e, ho⟩ | ⟨k1, m1, l, e, h1, h2, h3, h4⟩ | ⟨l, h1, h2, h3, h4⟩
    · obtain ⟨f1, i1⟩ := key _ _ e
      rw [runM_next e] at h
      rw [← ho]
      exact ih k1 m1 f1 i1 h hl
    · rw [runM_next e] at h
      cases n with
      | zero => cases h
      | succ n =>
        have e2 : stepM z conv g junk P (.n .start :: k1) m1 = .error m1 := by simp [stepM, h1, h2]
        rw [runM_stop e2 nofun] at h
        cases h
        exact ⟨rfl, l, h3, h4⟩
    · rw [runM_stop rfl h2] at h
      cases h
      exact ⟨h1, l, h3, h4⟩

/-- As long as memory is granted, a step is that of Model/Pda. -/
theorem step_sim {k : List Sym} {m : MSt} (hf : m.fail = false) (hr : (stepM z conv g junk P k m).st.fail = false) :
    (∃ k1 m1, stepM z conv g junk P k m = .next k1 m1 ∧ Pda.step z conv P k m.s = .next k1 m1.s) ∨
    (stepM z conv g junk P k m).same (Pda.step z conv P k m.s) := by
  cases k with
  | nil => exact .inr rfl
  | cons x k =>
    cases x with
    | a x =>
      simp only [stepM, Pda.step] at hr ⊢
      have hs := act_stop (z := z) (conv := conv) (g := g) (junk := junk) (x := x) hf
      cases e : actM z conv g junk x m with
      | ok m1 =>
        rw [e] at hr
        dsimp only at hr ⊢
        have f1 : m1.fail = false := by
          by_cases hc : x = .finish ∧ m1.fail = true
          · rw [if_pos hc] at hr; exact hr
          · rw [if_neg hc] at hr; exact hr
        rw [if_neg (by rw [f1]; simp), (act_sim e f1).2]
        exact .inl ⟨_, _, rfl, rfl⟩
      | «syntax» => rw [hs.1 e]; exact .inr rfl
      | fault => rw [hs.2 e]; exact .inr rfl
    | t x =>
      simp only [stepM, Pda.step, hf]
      repeat' split
      all_goals first | exact .inl ⟨_, _, rfl, rfl⟩ | exact .inr rfl | (exfalso; simp_all; done)
    | n x =>
      simp only [stepM, Pda.step, hf]
      split
      · cases Pda.prod x (hd m.s.ts).1 with
        | none => exact .inr rfl
        | some r => dsimp only; split <;> first | exact .inl ⟨_, _, rfl, rfl⟩ | exact .inr rfl
      · exact .inl ⟨_, _, rfl, rfl⟩

theorem step_out {k : List Sym} {s : PSt} : s.out <+: (Pda.step z conv P k s).st.out := by
  cases k with
  | nil => exact List.prefix_rfl
  | cons x k =>
    cases x with
    | a x =>
      simp only [Pda.step]
      cases e : act z conv x s with
      | ok s1 => exact act_out e
      | «syntax» => exact List.prefix_rfl
      | fault => exact List.prefix_rfl
    | t x =>
      simp only [Pda.step]
      repeat' split
      all_goals exact List.prefix_rfl
    | n x =>
      simp only [Pda.step]
      repeat' split
      all_goals exact List.prefix_rfl

theorem run_out : ∀ (n : Nat) (k : List Sym) (s : PSt) {q}, Pda.run z conv P n k s = some q → s.out <+: q.st.out := by
  intro n
  induction n with
  | zero => intro k s q h; cases h
  | succ n ih =>
    intro k s q h
    have := step_out (z := z) (conv := conv) (P := P) (k := k) (s := s)
    cases e : Pda.step z conv P k s with
    | next k1 s1 => rw [run_next e] at h; rw [e] at this; exact this.trans (ih _ _ h)
    | _ => rw [run_stop e nofun] at h; cases h; rw [e] at this; exact this

/-- A whole run. -/
theorem run_main : ∀ (n : Nat) (k : List Sym) (m : MSt) {r}, m.fail = false → Inv z k m → runM z conv g junk P n k m = some r → r.st.lost = false →
    (r.st.fail = false ∧ ∃ q, Pda.run z conv P n k m.s = some q ∧ r.same q) ∨
    (r.st.fail = true ∧ r.isDone = false ∧ ∃ o l, r.st.s.out = o ++ l ∧ Last z.W l ∧
      ∀ N q, Pda.run z conv P N k m.s = some q → o <+: q.st.out) := by
  intro n
  induction n with
  | zero => intro k m r _ _ h; cases h
  | succ n ih =>
    intro k m r hf hi h hl
    cases hc : (stepM z conv g junk P k m).st.fail with
    | false =>
      rcases step_sim hf hc with ⟨k1, m1, e, e2⟩ | hs
      · rw [e] at hc
        rw [runM_next e] at h
        rcases ih k1 m1 hc (step_inv e ((run_along n k1 m1 h).lost hl) hi) h hl with ⟨a, q, b, c⟩ | ⟨a, b, o, l, c, d, f⟩
        · exact .inl ⟨a, q, (run_next e2).trans b, c⟩
        · refine .inr ⟨a, b, o, l, c, d, fun N q hq => ?_⟩
          cases N with
          | zero => cases hq
          | succ N => rw [run_next e2] at hq; exact f N q hq
      · cases e : stepM z conv g junk P k m with
        | next k1 m1 => rw [e] at hs; exact hs.elim
        | error m1 => rw [e] at hs; exact hs.elim
        | _ =>
          rw [runM_stop e nofun] at h
          cases h
          rw [e] at hs hc
          exact .inl ⟨hc, _, run_stop hs nofun, rfl⟩
    | true =>
      refine .inr ?_
      rcases step_failed hc hi with ⟨k1, m1, e, ho⟩ | ⟨k1, m1, l, e, h1, h2, h3, h4⟩ | ⟨l, h1, h2, h3, h4⟩
      · rw [runM_next e] at h
        rw [e] at hc
        obtain ⟨a, l, b, c⟩ := run_failed n k1 m1 hc (step_inv e ((run_along n k1 m1 h).lost hl) hi) h hl
        exact ⟨(run_along n k1 m1 h).fail hc, a, m.s.out, l, by rw [b, ho], c, fun N q hq => run_out N k m.s hq⟩
      · rw [runM_next e] at h
        cases n with
        | zero => cases h
        | succ n =>
          have e2 : stepM z conv g junk P (.n .start :: k1) m1 = .error m1 := by simp [stepM, h1, h2]
          rw [runM_stop e2 nofun] at h
          cases h
          exact ⟨h2, rfl, m.s.out, l, h3, h4, fun N q hq => run_out N k m.s hq⟩
      · rw [runM_stop rfl h2] at h
        cases h
        exact ⟨hc, h1, m.s.out, l, h3, h4, fun N q hq => run_out N k m.s hq⟩

theorem init_inv (ts : List LT) : Inv z [.n .start] (MSt.init ts) := ⟨rfl, nofun, rfl, rfl, rfl, nofun⟩

/-- The parser stops. -/
theorem stepM_less {k k1 : List Sym} {m m1 : MSt} (h : stepM z conv g junk P k m = .next k1 m1) (hk : k.all leveled = true) :
    k1.all leveled = true ∧
      (m1.s.ts.length < m.s.ts.length ∨ (m1.s.ts = m.s.ts ∧ (busyAll k1 < busyAll k ∨ (k1 = k ∧ m.s.la = false ∧ m1.s.la = true)))) := by
  cases k with
  | nil => cases h
  | cons x k =>
    rw [List.all_cons, Bool.and_eq_true] at hk
    cases x with
    | a x =>
      simp only [stepM] at h
      cases ea : actM z conv g junk x m with
      | ok m2 =>
        rw [ea] at h
        dsimp only at h
        split at h
        · cases h
        · cases h
          have hts : m1.s.ts = m.s.ts := by
            by_cases h1 : x = .finish
            · subst h1; exact (finish_frame ea).1
            · by_cases h2 : x = .defEnd
              · subst h2; exact (defEnd_frame ea).1
              · exact (act_keep ea h1 h2).ts
          refine ⟨hk.2, .inr ⟨hts, .inl ?_⟩⟩
          simp [busyAll, busy, skips]
      | «syntax» => rw [ea] at h; cases h
      | fault => rw [ea] at h; cases h
    | t x =>
      simp only [stepM] at h
      split at h
      · split at h
        · rename_i h2
          cases h
          refine ⟨hk.2, .inl ?_⟩
          cases hs : m.s.ts with
          | nil => rw [hs] at h2; exact (is_eof h2).elim
          | cons t ts => simp
        · cases h
      · rename_i h1
        split at h
        · cases h
        · cases h
          exact ⟨by rw [List.all_cons, Bool.and_eq_true]; exact hk, .inr ⟨rfl, .inr ⟨rfl, by simpa using h1, rfl⟩⟩⟩
    | n x =>
      simp only [stepM] at h
      split at h
      · cases ep : Pda.prod x (hd m.s.ts).1 with
        | none => rw [ep] at h; cases h
        | some p =>
          rw [ep] at h
          dsimp only at h
          split at h
          · cases h
            obtain ⟨b1, b2, b3⟩ := prod_busy hk.1 ep
            refine ⟨by rw [List.all_append, Bool.and_eq_true]; exact ⟨b3, hk.2⟩, .inr ⟨rfl, .inl ?_⟩⟩
            rw [busyAll_append]
            cases hsk : skips (.n x) with
            | false => rw [b2 hsk]; simp [busyAll, hsk, b1]
            | true =>
              simp only [busyAll, hsk, if_true]
              split <;> omega
          · cases h
      · rename_i h1
        split at h
        · cases h
        · cases h
          exact ⟨by rw [List.all_cons, Bool.and_eq_true]; exact hk, .inr ⟨rfl, .inr ⟨rfl, by simpa using h1, rfl⟩⟩⟩

theorem runM_lex (a : Nat) : ∀ (b : Nat) (la : Bool) (k : List Sym) (s : MSt), s.s.ts.length = a → busyAll k = b → s.s.la = la →
    k.all leveled = true → ∃ n r, runM z conv g junk P n k s = some r := by
  induction a using Nat.strongRecOn with
  | _ a iha =>
  intro b
  induction b using Nat.strongRecOn with
  | _ b ihb =>
  have base : ∀ (k : List Sym) (s : MSt), s.s.ts.length = a → busyAll k = b → k.all leveled = true →
      (∀ k1 s1, stepM z conv g junk P k s = .next k1 s1 → k1 = k → s1.s.la = true → s1.s.ts.length = a → ∃ n r, runM z conv g junk P n k1 s1 = some r) →
      ∃ n r, runM z conv g junk P n k s = some r := by
    intro k s ha hb hk hla
    cases e : stepM z conv g junk P k s with
    | next k1 s1 =>
      obtain ⟨hk1, h | ⟨h, h2 | ⟨h2, h3, h4⟩⟩⟩ := stepM_less e hk
      · obtain ⟨n, r, hn⟩ := iha s1.s.ts.length (by omega) _ s1.s.la k1 s1 rfl rfl rfl hk1
        exact ⟨n + 1, r, (runM_next e).trans hn⟩
      · obtain ⟨n, r, hn⟩ := ihb (busyAll k1) (by omega) s1.s.la k1 s1 (by rw [h]; exact ha) rfl rfl hk1
        exact ⟨n + 1, r, (runM_next e).trans hn⟩
      · obtain ⟨n, r, hn⟩ := hla k1 s1 e h2 h4 (by rw [h]; exact ha)
        exact ⟨n + 1, r, (runM_next e).trans hn⟩
    | done s1 => exact ⟨1, _, runM_stop e nofun⟩
    | «syntax» s1 => exact ⟨1, _, runM_stop e nofun⟩
    | oom s1 => exact ⟨1, _, runM_stop e nofun⟩
    | error s1 => exact ⟨1, _, runM_stop e nofun⟩
    | fault s1 => exact ⟨1, _, runM_stop e nofun⟩
  have hT : ∀ (k : List Sym) (s : MSt), s.s.ts.length = a → busyAll k = b → s.s.la = true → k.all leveled = true →
      ∃ n r, runM z conv g junk P n k s = some r := by
    intro k s ha hb hl hk
    refine base k s ha hb hk fun k1 s1 e h1 h2 h3 => ?_
    obtain ⟨_, h | ⟨h, h2 | ⟨h2, h3, h4⟩⟩⟩ := stepM_less e hk
    · omega
    · subst h1; omega
    · rw [hl] at h3; cases h3
  intro la k s ha hb _ hk
  refine base k s ha hb hk fun k1 s1 e h1 h2 h3 => ?_
  subst h1
  exact hT k1 s1 h3 hb h2 hk


theorem parseM_stops (ts : List LT) : ∃ n r, parseM z conv g junk P n ts = some r :=
  runM_lex _ _ _ _ _ rfl rfl rfl rfl

end Snek.Scarce
