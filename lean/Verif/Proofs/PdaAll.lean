import Verif.Proofs.PdaRun
import Verif.Proofs.StmtSound
/-! The whole run of the parser. -/
namespace Snek.Pda
open Snek.Vm Snek.Lang Snek.Lex Snek.Parse Spec.Syntax Spec.Program

variable {z : Sizes} {conv : BitVec 32 → BitVec 8} {P : Nat}

theorem step_st {x : Sym} {k : List Sym} {s : PSt} {r} (h : step z conv P (x :: k) s = r) (hr : ∀ k1 s1, r ≠ .next k1 s1) :
    r.st = s ∧ ∀ s1, r ≠ .done s1 := by
  subst h
  cases x with
  | a x =>
    simp only [step] at hr ⊢
    cases ea : act z conv x s with
    | ok s1 => rw [ea] at hr; exact absurd rfl (hr _ _)
    | «syntax» => exact ⟨rfl, nofun⟩
    | fault => exact ⟨rfl, nofun⟩
  | t x =>
    simp only [step] at hr ⊢
    split
    · split
      · rename_i h1 h2
        rw [if_pos h1, if_pos h2] at hr
        exact absurd rfl (hr _ _)
      · exact ⟨rfl, nofun⟩
    · rename_i h1
      rw [if_neg h1] at hr
      exact absurd rfl (hr _ _)
  | n x =>
    simp only [step] at hr ⊢
    split
    · rename_i h1
      rw [if_pos h1] at hr
      cases ep : Pda.prod x (hd s.ts).1 with
      | none => exact ⟨rfl, nofun⟩
      | some p =>
        rw [ep] at hr
        dsimp only at hr ⊢
        split
        · rename_i h2
          rw [if_pos h2] at hr
          exact absurd rfl (hr _ _)
        · exact ⟨rfl, nofun⟩
    · rename_i h1
      rw [if_neg h1] at hr
      exact absurd rfl (hr _ _)

/-- What the parser has done when it stops. -/
def Passed (W : Nat) (conv : BitVec 32 → BitVec 8) (out : List Code) (ts : List LT) (r : Res) : Prop :=
  ∃ parts : List (Cmd × List LT), ∃ rest : List LT, ts = parts.flatMap Prod.snd ++ rest ∧ (∀ p ∈ parts, Forms (.cmd p.1) p.2) ∧
    r.st.out = out ++ parts.flatMap (fun p => codeOf W conv p.1) ∧
    (∀ s, r = .done s → (hd rest).1 = .eof) ∧
    (∀ s, r = .syntax s → (hd rest).1 ≠ .eof ∧ ∀ k, command k rest = none)

theorem passed (hW : 2 ≤ z.W) (n : Nat) : ∀ (s : PSt) (ts : List LT) (r : Res),
    Pda.run z conv P n [.n .start] (s.lk ts Buf.empty) = some r →
    roomy z conv P n [.n .start] (s.lk ts Buf.empty) = true → s.fd = 0 → Fine z.W ts → Passed z.W conv s.out ts r := by
  induction n using Nat.strongRecOn with
  | _ n ih =>
  intro s ts r h hr hd0 hf
  cases n with
  | zero => cases h
  | succ n =>
    by_cases he : (hd ts).1 = .eof
    · have e : step z conv P [.n .start] (s.lk ts Buf.empty) = .next [] (s.lk ts Buf.empty) := by
        simp [step, PSt.lk, he, Pda.prod]
      rw [run_next e] at h
      cases n with
      | zero => cases h
      | succ n =>
        rw [run_stop (r := .done (s.lk ts Buf.empty)) rfl nofun] at h
        cases h
        exact ⟨[], ts, rfl, nofun, (List.append_nil _).symm, fun _ _ => he, nofun⟩
    · have e : step z conv P [.n .start] (s.lk ts Buf.empty) =
          if 2 ≤ P then .next [.n .command, .n .start] (s.lk ts Buf.empty) else .oom (s.lk ts Buf.empty) := by
        have : Pda.prod .start (hd ts).1 = some [.n .command, .n .start] := prod_start he
        simp [step, PSt.lk, this]
      by_cases hP : 2 ≤ P
      · rw [if_pos hP] at e
        rw [run_next e] at h
        have hr := roomy_next hr e
        rcases iso (q := [.n .command]) (r := [.n .start]) h hr with ⟨m, s1, hm, hm', g, h2, hr2⟩ | ⟨q', s1, T, hq, hs, hn, hv⟩
        · obtain ⟨c, rl, ev, su, s2, mm, d2, o2, rfl⟩ := g.command hW hf hd0
          obtain ⟨k, hk⟩ := ev
          obtain ⟨t, et, fc⟩ := command_sound (hk k (Nat.le_refl k))
          have hm2 := hm' nofun
          have key : Passed z.W conv s2.out rl r := by
            cases mm with
            | none => exact ih m (by omega) s2 rl r h2 hr2 d2 (hf.suffix su)
            | some u =>
              cases m with
              | zero => cases h2
              | succ m =>
                have e : step z conv P [.n .start] (s2.en rl (some u) Buf.empty) = .next [.n .start] (s2.lk rl Buf.empty) := rfl
                rw [run_next e] at h2
                exact ih m (by omega) s2 rl r h2 (roomy_next hr2 e) d2 (hf.suffix su)
          obtain ⟨parts, rest, e1, f1, o1, k1, k2⟩ := key
          refine ⟨(c, t) :: parts, rest, ?_, ?_, ?_, k1, k2⟩
          · rw [List.flatMap_cons, List.append_assoc, ← e1]; exact et
          · intro p hp
            rcases List.mem_cons.1 hp with rfl | hp
            · exact fc
            · exact f1 p hp
          · rw [o1, o2, List.flatMap_cons, List.append_assoc]
        · obtain ⟨o1, _⟩ := T.silent ⟨[], [.n .command], rfl, nofun, by simp⟩ hq
          cases q' with
          | nil => exact absurd rfl hq
          | cons x q' =>
            obtain ⟨st, nd⟩ := step_st hs hn
            refine ⟨[], ts, rfl, nofun, by rw [st, o1]; exact (List.append_nil _).symm, fun s2 e2 => absurd e2 (nd s2), fun s2 e2 => ⟨he, fun k => ?_⟩⟩
            cases ek : command k ts with
            | none => rfl
            | some p =>
              obtain ⟨c, rl⟩ := p
              obtain ⟨su, m, R⟩ := ok_command (z := ⟨z.W, max z.V (s.vals.length + needCmd c), max z.F (formalsOf c)⟩) (conv := conv) hW ek hf
              obtain ⟨s3, _, _, _, R⟩ := R s [] hd0 (Nat.le_max_right ..) (Nat.le_max_right ..)
              subst e2
              exact (T.err R [.n .start] hs hq rfl rfl (Nat.le_max_left ..) (Nat.le_max_left ..) hv).elim
      · rw [if_neg hP] at e
        rw [run_stop e nofun] at h
        cases h
        exact ⟨[], ts, rfl, nofun, (List.append_nil _).symm, nofun, nofun⟩

theorem parse_passed (hW : 2 ≤ z.W) {n ts r} (h : parse z conv P n ts = some r) (hr : roomy z conv P n [.n .start] (PSt.init ts) = true)
    (hf : Fine z.W ts) : Passed z.W conv [] ts r := by
  cases n with
  | zero => cases h
  | succ n =>
    have e : step z conv P [.n .start] (PSt.init ts) = .next [.n .start] ((PSt.init ts).lk ts Buf.empty) := rfl
    rw [parse, run_next e] at h
    exact passed hW n _ ts r h (roomy_next hr e) rfl hf

end Snek.Pda
