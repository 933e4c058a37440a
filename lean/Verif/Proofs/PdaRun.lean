import Verif.Proofs.PdaSndC
import Verif.Spec.Room
/-! Runs of the parser, command by command. -/
namespace Snek.Pda
open Snek.Vm Snek.Lang Snek.Lex Snek.Parse Spec.Syntax

variable {z : Sizes} {conv : BitVec 32 → BitVec 8} {P : Nat}

theorem act_F {a} {s : PSt} (F : Nat) (h : a ≠ .formal) : act z conv a s = act ⟨z.W, z.V, F⟩ conv a s := by
  cases a <;> first | rfl | contradiction

/-- An action that does not fail does the same with more room. -/
theorem act_more {z' : Sizes} {a} {s s1 : PSt} (hW : z.W = z'.W) (hv : s.vals.length + 2 ≤ z.V) (hv' : s.vals.length + 2 ≤ z'.V)
    (hF : z.F ≤ z'.F ∨ s.formals.length + 1 ≤ z'.F) (h : act z conv a s = .ok s1) : act z' conv a s = .ok s1 := by
  by_cases ha : a = .formal
  · subst ha
    unfold act at h ⊢
    dsimp only at h ⊢
    split at h
    · cases h
    · rename_i hn
      rw [if_neg (by omega)]
      exact h
  · rw [act_F (s.formals.length + 1) ha] at h ⊢
    rw [← act_room (z := ⟨z.W, z.V, s.formals.length + 1⟩) (z' := ⟨z'.W, z'.V, s.formals.length + 1⟩) hW hv hv' (Nat.le_refl _) (Nat.le_refl _)]
    exact h

/-- Nor does one that finds an error. -/
theorem act_err {z' : Sizes} {a} {s : PSt} (hW : z.W = z'.W) (hv : s.vals.length + 2 ≤ z.V) (hv' : s.vals.length + 2 ≤ z'.V)
    (h : act z conv a s = .syntax) : act z' conv a s = .syntax := by
  by_cases ha : a = .formal
  · subst ha
    unfold act at h
    dsimp only at h
    split at h <;> cases h
  · rw [act_F (s.formals.length + 1) ha] at h ⊢
    rw [← act_room (z := ⟨z.W, z.V, s.formals.length + 1⟩) (z' := ⟨z'.W, z'.V, s.formals.length + 1⟩) hW hv hv' (Nat.le_refl _) (Nat.le_refl _)]
    exact h

theorem run_next {n k s k1 s1} (h : step z conv P k s = .next k1 s1) : Pda.run z conv P (n + 1) k s = Pda.run z conv P n k1 s1 := by
  show (match step z conv P k s with | .next _ _ => _ | _ => _) = _
  rw [h]

theorem run_stop {n k s r} (h : step z conv P k s = r) (hr : ∀ k1 s1, r ≠ .next k1 s1) : Pda.run z conv P (n + 1) k s = some r := by
  show (match step z conv P k s with | .next _ _ => _ | _ => _) = _
  rw [h]
  cases r <;> first | rfl | exact absurd rfl (hr _ _)

theorem roomy_next {n k s k1 s1} (h : roomy z conv P (n + 1) k s = true) (e : step z conv P k s = .next k1 s1) :
    roomy z conv P n k1 s1 = true := by
  have := h
  unfold roomy at this
  rw [e] at this
  exact (Bool.and_eq_true _ _ ▸ this).2

theorem roomy_vals {n k s} (h : roomy z conv P (n + 1) k s = true) : s.vals.length + 2 ≤ z.V := by
  unfold roomy at h
  rw [Bool.and_eq_true] at h
  exact of_decide_eq_true h.1

/-- A part of a run with room for values. -/
inductive Trail (z : Sizes) (conv : BitVec 32 → BitVec 8) : List Sym → PSt → List Sym → PSt → Prop
  | refl {k s} : Trail z conv k s k s
  | look {x k s k' s'} : s.la = false → (∀ a, x ≠ .a a) → Trail z conv (x :: k) s.look k' s' → Trail z conv (x :: k) s k' s'
  | act {a k s s1 k' s'} : s.vals.length + 2 ≤ z.V → Pda.act z conv a s = .ok s1 → Trail z conv k s1 k' s' → Trail z conv (.a a :: k) s k' s'
  | tok {x k s k' s'} : s.la = true → x.is (hd s.ts).1 = true → Trail z conv k { s with ts := s.ts.tail, la := false } k' s' →
      Trail z conv (.t x :: k) s k' s'
  | prod {x r k s k' s'} : s.la = true → Pda.prod x (hd s.ts).1 = some r → Trail z conv (r ++ k) s k' s' →
      Trail z conv (.n x :: k) s k' s'

/-- Running with something below on the stack: either the upper part is got through, or the parser stops in it. -/
theorem iso {r : List Sym} : ∀ {n : Nat} {q : List Sym} {s : PSt} {res : Res}, Pda.run z conv P n (q ++ r) s = some res →
    roomy z conv P n (q ++ r) s = true →
    (∃ m s1, m ≤ n ∧ (q ≠ [] → m < n) ∧ Go z.W conv n q s s1 ∧ Pda.run z conv P m r s1 = some res ∧ roomy z conv P m r s1 = true) ∨
      (∃ q' s1, Trail z conv q s q' s1 ∧ q' ≠ [] ∧ step z conv P (q' ++ r) s1 = res ∧ (∀ k t, res ≠ .next k t) ∧
        s1.vals.length + 2 ≤ z.V)
  | 0, _, _, _, h, _ => by cases h
  | n+1, [], s, res, h, hr => .inl ⟨n + 1, s, Nat.le_refl _, fun h => absurd rfl h, .nil, h, hr⟩
  | n+1, x :: q, s, res, h, hr => by
    have hv := roomy_vals hr
    cases e : step z conv P (x :: q ++ r) s with
    | next k1 s1 =>
      rw [run_next e] at h
      have hr1 := roomy_next hr e
      have key : ∃ q1, k1 = q1 ++ r ∧ (∀ {m s'}, Go z.W conv m q1 s1 s' → Go z.W conv (m + 1) (x :: q) s s') ∧
          (∀ {q' s'}, Trail z conv q1 s1 q' s' → Trail z conv (x :: q) s q' s') := by
        cases x with
        | a x =>
          simp only [List.cons_append, step] at e
          cases ea : act z conv x s with
          | ok s2 =>
            rw [ea] at e
            cases e
            exact ⟨q, rfl, fun g => .act (act_more (z := z) (z' := room z.W s) rfl hv (Nat.le_refl _) (.inr (Nat.le_refl _)) ea) g, fun R => .act hv ea R⟩
          | «syntax» => rw [ea] at e; cases e
          | fault => rw [ea] at e; cases e
        | t x =>
          simp only [List.cons_append, step] at e
          by_cases hl : s.la = true
          · rw [if_pos hl] at e
            by_cases hi : x.is (hd s.ts).1 = true
            · rw [if_pos hi] at e
              cases e
              exact ⟨q, rfl, fun g => .tok hl hi g, fun R => .tok hl hi R⟩
            · rw [if_neg hi] at e; cases e
          · rw [if_neg hl] at e
            cases e
            exact ⟨.t x :: q, rfl, fun g => .look (by simpa using hl) nofun g, fun R => .look (by simpa using hl) nofun R⟩
        | n x =>
          simp only [List.cons_append, step] at e
          by_cases hl : s.la = true
          · rw [if_pos hl] at e
            cases ep : prod x (hd s.ts).1 with
            | none => rw [ep] at e; cases e
            | some p =>
              rw [ep] at e
              dsimp only at e
              split at e
              · cases e
                exact ⟨p ++ q, (List.append_assoc ..).symm, fun g => .prod hl ep g, fun R => .prod hl ep R⟩
              · cases e
          · rw [if_neg hl] at e
            cases e
            exact ⟨.n x :: q, rfl, fun g => .look (by simpa using hl) nofun g, fun R => .look (by simpa using hl) nofun R⟩
      obtain ⟨q1, rfl, G, R⟩ := key
      rcases iso h hr1 with ⟨m, s2, hm, _, g, h2, hr2⟩ | ⟨q', s2, R2, hq, hs⟩
      · exact .inl ⟨m, s2, by omega, fun _ => by omega, G g, h2, hr2⟩
      · exact .inr ⟨q', s2, R R2, hq, hs⟩
    | done s1 =>
      rw [run_stop e nofun] at h
      cases h
      exact .inr ⟨x :: q, s, .refl, nofun, e, nofun, hv⟩
    | «syntax» s1 =>
      rw [run_stop e nofun] at h
      cases h
      exact .inr ⟨x :: q, s, .refl, nofun, e, nofun, hv⟩
    | oom s1 =>
      rw [run_stop e nofun] at h
      cases h
      exact .inr ⟨x :: q, s, .refl, nofun, e, nofun, hv⟩
    | fault s1 =>
      rw [run_stop e nofun] at h
      cases h
      exact .inr ⟨x :: q, s, .refl, nofun, e, nofun, hv⟩

/-! ## What has been passed on -/

/-- Symbols that pass on nothing. -/
def quiet : Sym → Bool
  | .a .finish | .a .defEnd | .n .command | .n .start => false
  | _ => true

theorem prodLvl_quiet {l t r} (h : prodLvl l t = some r) : ∀ y ∈ r, quiet y = true := by
  unfold prodLvl at h
  split at h <;> cases h
  all_goals simp [quiet]

theorem prodTail_quiet {l t r} (h : prodTail l t = some r) : ∀ y ∈ r, quiet y = true := by
  unfold prodTail at h
  split at h
  all_goals first | (cases h; simp [quiet]; done) | (split at h <;> cases h <;> simp [quiet])

theorem prod_quiet {x t r} (hx : quiet (.n x) = true) (h : Pda.prod x t = some r) : ∀ y ∈ r, quiet y = true := by
  unfold Pda.prod at h
  split at h
  all_goals first
    | (cases hx; done)
    | exact prodLvl_quiet h
    | exact prodTail_quiet h
    | (cases h; done)
    | (cases h; simp [quiet]; done)
    | (split at h <;> cases h <;> simp [quiet])

theorem act_quiet {a} {s s1 : PSt} (hx : quiet (.a a) = true) (h : act z conv a s = .ok s1) : s1.out = s.out := by
  cases a <;> simp only [act, lvalue, PSt.pop] at h
  all_goals repeat' split at h
  all_goals first | (cases h; done) | (cases hx; done) | skip
  all_goals cases h
  all_goals simp [push_out, code_out]

/-- Only the last symbol passes something on. -/
def LastOnly (q : List Sym) : Prop :=
  ∃ q1 tl, q = q1 ++ tl ∧ (∀ y ∈ q1, quiet y = true) ∧ (tl = [] ∨ tl = [.n .command] ∨ tl = [.a .finish] ∨ tl = [.a .defEnd])

theorem LastOnly.cons {x : Sym} {q : List Sym} (h : LastOnly (x :: q)) :
    (quiet x = true ∧ LastOnly q) ∨ (q = [] ∧ (x = .n .command ∨ x = .a .finish ∨ x = .a .defEnd)) := by
  obtain ⟨q1, tl, e, hq, ht⟩ := h
  cases q1 with
  | nil =>
    rcases ht with rfl | rfl | rfl | rfl
    · cases e
    all_goals cases e; exact .inr ⟨rfl, by simp⟩
  | cons y q1 =>
    cases e
    exact .inl ⟨hq _ List.mem_cons_self, q1, tl, rfl, fun y hy => hq y (List.mem_cons_of_mem _ hy), ht⟩

theorem LastOnly.add {r q : List Sym} (hr : ∀ y ∈ r, quiet y = true) (h : LastOnly q) : LastOnly (r ++ q) := by
  obtain ⟨q1, tl, rfl, hq, ht⟩ := h
  refine ⟨r ++ q1, tl, (List.append_assoc ..).symm, fun y hy => ?_, ht⟩
  rcases List.mem_append.1 hy with h | h
  · exact hr y h
  · exact hq y h

theorem LastOnly.command {t r} (h : Pda.prod .command t = some r) : LastOnly r := by
  have o : LastOnly [.n .stat, .a .finish] := ⟨[.n .stat], [.a .finish], rfl, by simp [quiet], by simp⟩
  cases t
  case kw k =>
    cases k
    case def_ =>
      cases h
      exact ⟨[.t (.kw .def_), .t .name, .a .defName, .t .op, .n .optFormals, .t .cp, .t .colon, .n .suite], [.a .defEnd], rfl,
        by simp [quiet], by simp⟩
    case import_ => cases h; exact ⟨[.t (.kw .import_), .t .name], [], rfl, by simp [quiet], by simp⟩
    case from_ => cases h; exact ⟨[.t (.kw .from_), .t .name, .t (.kw .import_), .t (.bin 9)], [], rfl, by simp [quiet], by simp⟩
    all_goals cases h; exact o
  all_goals cases h; exact o

theorem Trail.silent {q q' : List Sym} {s s' : PSt} (h : Trail z conv q s q' s') (hq : LastOnly q) (hn : q' ≠ []) :
    s'.out = s.out ∧ LastOnly q' := by
  induction h with
  | refl => exact ⟨rfl, hq⟩
  | look _ _ _ ih => exact ih hq hn
  | act _ a R ih =>
    rcases hq.cons with ⟨h1, h2⟩ | ⟨rfl, _⟩
    · obtain ⟨o, l⟩ := ih h2 hn
      exact ⟨o.trans (act_quiet h1 a), l⟩
    · cases R
      exact absurd rfl hn
  | tok _ _ R ih =>
    rcases hq.cons with ⟨h1, h2⟩ | ⟨rfl, _⟩
    · exact ih h2 hn
    · cases R
      exact absurd rfl hn
  | @prod x r k s k' s' _ d R ih =>
    rcases hq.cons with ⟨h1, h2⟩ | ⟨rfl, e | e | e⟩
    · exact ih (h2.add (prod_quiet h1 d)) hn
    · cases e
      rw [List.append_nil] at ih
      exact ih (LastOnly.command d) hn
    · cases e
    · cases e

/-! ## Errors -/

/-- A run that ends in a syntax error inside of a command cannot be a run through a command. -/
theorem Trail.err {k k1 k' : List Sym} {s s1 s' : PSt} {z' : Sizes} (h : Trail z conv k s k1 s1) (h' : Reach z' conv k s k' s') (r : List Sym) {s2}
    (he : step z conv P (k1 ++ r) s1 = .syntax s2) (hk : k1 ≠ []) (hk' : k' = []) (hW : z.W = z'.W) (hV : z.V ≤ z'.V) (hF : z.F ≤ z'.F)
    (hv : s1.vals.length + 2 ≤ z.V) : False := by
  induction h with
  | @refl k s =>
    cases h' with
    | refl => exact hk hk'
    | @look x k _ _ _ c d _ => 
      cases x with
      | a x => exact d _ rfl
      | t x => simp [step, c] at he
      | n x => simp [step, c] at he
    | @act x k s s1 _ _ a _ =>
      simp only [step, List.cons_append] at he
      cases ea : Pda.act z conv x s with
      | ok _ => rw [ea] at he; cases he
      | «syntax» => rw [act_err hW hv (Nat.le_trans hv hV) ea] at a; cases a
      | fault => rw [ea] at he; cases he
    | tok c d _ => simp [step, c, d] at he
    | prod c d _ =>
      simp only [step, List.cons_append, c, d, if_true] at he
      split at he <;> cases he
  | look c d R ih =>
    cases h' with
    | refl => cases hk'
    | look _ _ R' => exact ih R' he hk hv
    | act _ _ => exact d _ rfl
    | tok c' _ _ => rw [c] at c'; cases c'
    | prod c' _ _ => rw [c] at c'; cases c'
  | act hv1 a R ih =>
    cases h' with
    | refl => cases hk'
    | look _ d _ => exact d _ rfl
    | act a' R' =>
      rw [act_more hW hv1 (Nat.le_trans hv1 hV) (.inl hF) a] at a'
      cases a'
      exact ih R' he hk hv
  | tok c d R ih =>
    cases h' with
    | refl => cases hk'
    | look c' _ _ => rw [c] at c'; cases c'
    | tok _ _ R' => exact ih R' he hk hv
  | prod c d R ih =>
    cases h' with
    | refl => cases hk'
    | look c' _ _ => rw [c] at c'; cases c'
    | prod _ d' R' =>
      rw [d] at d'
      cases d'
      exact ih R' he hk hv

end Snek.Pda
