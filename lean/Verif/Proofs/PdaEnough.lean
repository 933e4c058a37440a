import Verif.Proofs.PdaSafe
/-! There are sizes with which the parser neither runs out of room nor loses anything. -/
namespace Snek.Pda
open Snek.Vm Snek.Lang Snek.Lex Snek.Parse Spec.Syntax

variable {conv : BitVec 32 → BitVec 8}

/-- How near the parser is to its end. -/
def near (k : List Sym) (s : PSt) : Nat × Nat × Nat := (s.ts.length, busyAll k, if s.la then 0 else 1)

theorem step_near {z : Sizes} {P} {k k1 : List Sym} {s s1 : PSt} (h : step z conv P k s = .next k1 s1) (hk : k.all leveled = true) :
    k1.all leveled = true ∧ Prod.Lex (· < ·) (Prod.Lex (· < ·) (· < ·)) (near k1 s1) (near k s) := by
  obtain ⟨hk1, h | ⟨h, h2 | ⟨h2, h3, h4⟩⟩⟩ := step_less h hk
  · exact ⟨hk1, .left _ _ h⟩
  · refine ⟨hk1, ?_⟩
    unfold near
    rw [h]
    exact .right _ (.left _ _ h2)
  · refine ⟨hk1, ?_⟩
    unfold near
    rw [h, h2, h3, h4]
    exact .right _ (.right _ (by decide))

theorem near_induct {C : List Sym → PSt → Prop}
    (h : ∀ k s, k.all leveled = true → (∀ z P k1 s1, step z conv P k s = .next k1 s1 → C k1 s1) → C k s)
    (k : List Sym) (s : PSt) (hk : k.all leveled = true) : C k s := by
  have wf : WellFounded (Prod.Lex (fun a b : Nat => a < b) (Prod.Lex (fun a b : Nat => a < b) (fun a b : Nat => a < b))) :=
    (Prod.lex ⟨_, Nat.lt_wfRel.wf⟩ (Prod.lex ⟨_, Nat.lt_wfRel.wf⟩ ⟨_, Nat.lt_wfRel.wf⟩)).wf
  suffices H : ∀ m : Nat × Nat × Nat, ∀ k s, near k s = m → k.all leveled = true → C k s from H _ k s rfl hk
  intro m
  induction m using wf.induction with
  | _ m ih =>
  intro k s e hk
  subst e
  refine h k s hk fun z P k1 s1 hs => ?_
  obtain ⟨a, b⟩ := step_near hs hk
  exact ih _ b k1 s1 rfl a

/-- The parser stops, with nothing lost and for no want of room. -/
def Fits (W : Nat) (conv : BitVec 32 → BitVec 8) (k : List Sym) (s : PSt) : Prop :=
  ∃ V0 F0 P0 n, ∀ V F P, V0 ≤ V → F0 ≤ F → P0 ≤ P → ∃ r, Pda.run ⟨W, V, F⟩ conv P n k s = some r ∧ roomy ⟨W, V, F⟩ conv P n k s = true ∧
    (∀ s', r ≠ .oom s') ∧ (∀ s', r = .fault s' → s'.formals.length < F)

theorem Fits.next {W} {k k1 : List Sym} {s s1 : PSt} (V0 F0 P0 : Nat)
    (e : ∀ V F P, V0 ≤ V → F0 ≤ F → P0 ≤ P → step ⟨W, V, F⟩ conv P k s = .next k1 s1)
    (h : Fits W conv k1 s1) : Fits W conv k s := by
  obtain ⟨V1, F1, P1, n, h⟩ := h
  refine ⟨max (max V0 V1) (s.vals.length + 2), max F0 F1, max P0 P1, n + 1, fun V F P hV hF hP => ?_⟩
  obtain ⟨r, a, b, c⟩ := h V F P (by omega) (by omega) (by omega)
  have e := e V F P (by omega) (by omega) (by omega)
  refine ⟨r, (run_next e).trans a, ?_, c⟩
  unfold roomy
  rw [e, Bool.and_eq_true]
  exact ⟨decide_eq_true (show s.vals.length + 2 ≤ V by omega), b⟩

theorem Fits.stop {W} {k : List Sym} {s : PSt} {r : Res} (V0 F0 P0 : Nat)
    (e : ∀ V F P, V0 ≤ V → F0 ≤ F → P0 ≤ P → step ⟨W, V, F⟩ conv P k s = r)
    (hn : ∀ k t, r ≠ .next k t) (ho : ∀ s', r ≠ .oom s') (hf : ∀ s', r = .fault s' → s'.formals.length < F0) : Fits W conv k s := by
  refine ⟨max V0 (s.vals.length + 2), F0, P0, 1, fun V F P hV hF hP => ?_⟩
  have e := e V F P (by omega) (by omega) (by omega)
  refine ⟨r, run_stop e hn, ?_, ho, fun s' h => Nat.lt_of_lt_of_le (hf s' h) hF⟩
  unfold roomy
  rw [e, Bool.and_eq_true]
  refine ⟨decide_eq_true (show s.vals.length + 2 ≤ V by omega), ?_⟩
  cases r <;> first | rfl | exact absurd rfl (hn _ _)

theorem fits (W : Nat) (k : List Sym) (s : PSt) (hk : k.all leveled = true) : Fits W conv k s := by
  refine near_induct (conv := conv) (fun k s _ ih => ?_) k s hk
  cases k with
  | nil => exact Fits.stop 0 0 0 (fun _ _ _ _ _ _ => rfl) nofun nofun nofun
  | cons x k =>
    cases x with
    | a x =>
      have E : ∀ V F P, s.vals.length + 2 ≤ V → s.formals.length + 1 ≤ F → 0 ≤ P → step ⟨W, V, F⟩ conv P (.a x :: k) s =
          step (room W s) conv 0 (.a x :: k) s := fun V F P hV hF _ => by
        simp only [step]
        rw [act_room (z := ⟨W, V, F⟩) (z' := room W s) rfl hV (Nat.le_refl _) hF (Nat.le_refl _)]
      cases e : step (room W s) conv 0 (.a x :: k) s with
      | next k1 s1 => exact Fits.next _ _ _ (fun V F P a b c => (E V F P a b c).trans e) (ih _ _ _ _ e)
      | done s1 => exact Fits.stop _ _ _ (fun V F P a b c => (E V F P a b c).trans e) nofun nofun nofun
      | «syntax» s1 => exact Fits.stop _ _ _ (fun V F P a b c => (E V F P a b c).trans e) nofun nofun nofun
      | oom s1 =>
        simp only [step] at e
        split at e <;> cases e
      | fault s1 =>
        refine Fits.stop _ _ _ (fun V F P a b c => (E V F P a b c).trans e) nofun nofun fun s' h => ?_
        obtain ⟨st, _⟩ := step_st e nofun
        cases h
        have : s1 = s := st
        rw [this]
        exact Nat.lt_succ_self _
    | t x =>
      have E : ∀ V F P, 0 ≤ V → 0 ≤ F → 0 ≤ P → step ⟨W, V, F⟩ conv P (.t x :: k) s = step ⟨W, 0, 0⟩ conv 0 (.t x :: k) s :=
        fun _ _ _ _ _ _ => rfl
      cases e : step ⟨W, 0, 0⟩ conv 0 (.t x :: k) s with
      | next k1 s1 => exact Fits.next _ _ _ (fun V F P a b c => (E V F P a b c).trans e) (ih _ _ _ _ e)
      | done s1 => exact Fits.stop _ _ _ (fun V F P a b c => (E V F P a b c).trans e) nofun nofun nofun
      | «syntax» s1 => exact Fits.stop _ _ _ (fun V F P a b c => (E V F P a b c).trans e) nofun nofun nofun
      | oom s1 =>
        simp only [step] at e
        repeat' split at e
        all_goals cases e
      | fault s1 =>
        simp only [step] at e
        repeat' split at e
        all_goals cases e
    | n x =>
      by_cases hl : s.la = true
      · cases ep : Pda.prod x (hd s.ts).1 with
        | none =>
          refine Fits.stop (r := .syntax s) 0 0 0 (fun V F P _ _ _ => ?_) nofun nofun nofun
          simp only [step, hl, ep, if_true]
        | some p =>
          have E : ∀ V F P, 0 ≤ V → 0 ≤ F → (p ++ k).length ≤ P → step ⟨W, V, F⟩ conv P (.n x :: k) s = .next (p ++ k) s := fun V F P _ _ hP => by
            simp only [step, hl, ep, if_true, if_pos hP]
          exact Fits.next _ _ _ E (ih ⟨W, 0, 0⟩ _ _ _ (E 0 0 _ (Nat.le_refl _) (Nat.le_refl _) (Nat.le_refl _)))
      · have E : ∀ V F P, 0 ≤ V → 0 ≤ F → 0 ≤ P → step ⟨W, V, F⟩ conv P (.n x :: k) s = .next (.n x :: k) s.look := fun V F P _ _ _ => by
          simp only [step, if_neg hl]
        exact Fits.next _ _ _ E (ih ⟨W, 0, 0⟩ 0 _ _ (E 0 0 _ (Nat.le_refl _) (Nat.le_refl _) (Nat.le_refl _)))

end Snek.Pda
