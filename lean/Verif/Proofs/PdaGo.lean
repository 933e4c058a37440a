import Verif.Proofs.PdaCmd
/-! Runs of the table-driven parser to their end, with room for all values, and what can be concluded from their steps. -/
namespace Snek.Pda
open Snek.Vm Snek.Lang Snek.Lex Snek.Parse

variable {z : Sizes} {conv : BitVec 32 → BitVec 8} {W : Nat}

/-- Sizes with room for the next action. -/
def room (W : Nat) (s : PSt) : Sizes := ⟨W, s.vals.length + 2, s.formals.length + 1⟩

/-- The parser empties its stack in at most `n` steps, with room for values and formals. -/
inductive Go (W : Nat) (conv : BitVec 32 → BitVec 8) : Nat → List Sym → PSt → PSt → Prop
  | nil {n s} : Go W conv n [] s s
  | look {n x k s s'} : s.la = false → (∀ a, x ≠ .a a) → Go W conv n (x :: k) s.look s' → Go W conv (n + 1) (x :: k) s s'
  | act {n a k s s1 s'} : act (room W s) conv a s = .ok s1 → Go W conv n k s1 s' → Go W conv (n + 1) (.a a :: k) s s'
  | tok {n x k s s'} : s.la = true → x.is (hd s.ts).1 = true → Go W conv n k { s with ts := s.ts.tail, la := false } s' →
      Go W conv (n + 1) (.t x :: k) s s'
  | prod {n x r k s s'} : s.la = true → Pda.prod x (hd s.ts).1 = some r → Go W conv n (r ++ k) s s' →
      Go W conv (n + 1) (.n x :: k) s s'

theorem Go.mono {n m k s s'} (h : Go W conv n k s s') (hm : n ≤ m) : Go W conv m k s s' := by
  induction h generalizing m with
  | nil => exact .nil
  | look a b _ ih => cases m with | zero => omega | succ m => exact .look a b (ih (by omega))
  | act a _ ih => cases m with | zero => omega | succ m => exact .act a (ih (by omega))
  | tok a b _ ih => cases m with | zero => omega | succ m => exact .tok a b (ih (by omega))
  | prod a b _ ih => cases m with | zero => omega | succ m => exact .prod a b (ih (by omega))

/-- With room, the sizes make no difference. -/
theorem act_room {z z' : Sizes} {a} {s : PSt} (hW : z.W = z'.W) (h : s.vals.length + 2 ≤ z.V) (h' : s.vals.length + 2 ≤ z'.V)
    (f : s.formals.length + 1 ≤ z.F) (f' : s.formals.length + 1 ≤ z'.F) : act z conv a s = act z' conv a s := by
  obtain ⟨vals, buf, fd, fs, nn, out, ts, la, tv, line⟩ := s
  dsimp only at h h' f f'
  have p1 : ∀ (s : PSt) v, s.vals.length ≤ vals.length + 1 → s.push z v = { s with vals := v :: s.vals } :=
    fun s v hs => push_room (by omega)
  have p2 : ∀ (s : PSt) v, s.vals.length ≤ vals.length + 1 → s.push z' v = { s with vals := v :: s.vals } :=
    fun s v hs => push_room (by omega)
  have g1 : ¬ fs.length ≥ z.F := by omega
  have g2 : ¬ fs.length ≥ z'.F := by omega
  rcases vals with _ | ⟨v1, _ | ⟨v2, _ | ⟨v3, _ | ⟨v4, vs⟩⟩⟩⟩
  all_goals cases a
  all_goals simp [act, lvalue, PSt.pop, PSt.code, hW, p1, p2, g1, g2]
  all_goals repeat' split
  all_goals simp_all

/-- A run to the end goes through every state that is reached. -/
theorem Go.det {n k s s'} (h : Go W conv n k s s') : ∃ V0 F0, ∀ V F, V0 ≤ V → F0 ≤ F → ∀ r s1, Reach ⟨W, V, F⟩ conv k s r s1 →
    Go W conv n r s1 s' := by
  induction h with
  | nil => exact ⟨0, 0, fun V F _ _ r s1 R => by cases R; exact .nil⟩
  | @look n x k s s' a b g ih =>
    obtain ⟨V0, F0, ih⟩ := ih
    refine ⟨V0, F0, fun V F hV hF r s1 R => ?_⟩
    cases R with
    | refl => exact .look a b g
    | look _ _ R => exact (ih V F hV hF _ _ R).mono (by omega)
    | act _ _ => exact absurd rfl (b _)
    | tok c _ _ => rw [a] at c; cases c
    | prod c _ _ => rw [a] at c; cases c
  | @act n x k s s1 s' a g ih =>
    obtain ⟨V0, F0, ih⟩ := ih
    refine ⟨max V0 (s.vals.length + 2), max F0 (s.formals.length + 1), fun V F hV hF r s2 R => ?_⟩
    cases R with
    | refl => exact .act a g
    | look _ c _ => exact absurd rfl (c _)
    | act c R =>
      rw [act_room (z := ⟨W, V, F⟩) (z' := room W s) rfl (show _ ≤ V by omega) (Nat.le_refl _) (show _ ≤ F by omega) (Nat.le_refl _), a] at c
      cases c
      exact (ih V F (by omega) (by omega) _ _ R).mono (by omega)
  | @tok n x k s s' a b g ih =>
    obtain ⟨V0, F0, ih⟩ := ih
    refine ⟨V0, F0, fun V F hV hF r s1 R => ?_⟩
    cases R with
    | refl => exact .tok a b g
    | look c _ R => rw [a] at c; cases c
    | tok c _ R => exact (ih V F hV hF _ _ R).mono (by omega)
  | @prod n x p k s s' a b g ih =>
    obtain ⟨V0, F0, ih⟩ := ih
    refine ⟨V0, F0, fun V F hV hF r s1 R => ?_⟩
    cases R with
    | refl => exact .prod a b g
    | look c _ R => rw [a] at c; cases c
    | prod c d R =>
      rw [b] at d
      cases d
      exact (ih V F hV hF _ _ R).mono (by omega)

theorem Go.nt {s : PSt} {n x k tl b s'} (h : Go W conv (n + 1) (.n x :: k) (s.lk tl b) s') :
    ∃ p, Pda.prod x (hd tl).1 = some p ∧ Go W conv n (p ++ k) (s.lk tl b) s' := by
  cases h with
  | look c _ _ => cases c
  | prod _ d g => exact ⟨_, d, g⟩

theorem Go.nt0 {s : PSt} {x k tl b s'} (h : Go W conv 0 (.n x :: k) (s.lk tl b) s') : False := by cases h

theorem Go.ntU {s : PSt} {n x k tl t b s'} (h : Go W conv n (.n x :: k) (s.ul tl t b) s') : Go W conv n (.n x :: k) (s.lk tl b) s' := by
  cases h with
  | look c _ g => exact g.mono (by omega)
  | prod c d g => cases c

theorem is_eof {x : Tm} (h : x.is .eof = true) : False := by cases x <;> first | (cases h; done) | skip

theorem Go.tk {s : PSt} {n x k tl b s'} (h : Go W conv n (.t x :: k) (s.lk tl b) s') :
    ∃ t tl', tl = t :: tl' ∧ x.is t.1 = true ∧ Go W conv n k (s.ul tl' t b) s' := by
  cases h with
  | look c _ _ => cases c
  | tok _ d g =>
    cases tl with
    | nil => exact (is_eof d).elim
    | cons t tl => exact ⟨t, tl, rfl, d, g.mono (by omega)⟩

theorem Go.tkU {s : PSt} {n x k tl u b s'} (h : Go W conv n (.t x :: k) (s.ul tl u b) s') :
    ∃ t tl', tl = t :: tl' ∧ x.is t.1 = true ∧ Go W conv n k (s.ul tl' t b) s' := by
  cases h with
  | look c _ g => exact Go.tk (s := s) (g.mono (by omega))
  | tok c _ _ => cases c

theorem Go.a {s : PSt} {n a k s'} (h : Go W conv n (.a a :: k) s s') :
    ∃ s1, Pda.act (room W s) conv a s = .ok s1 ∧ Go W conv n k s1 s' := by
  cases h with
  | look _ c _ => exact absurd rfl (c _)
  | act c g => exact ⟨_, c, g.mono (by omega)⟩

theorem Go.bad {s : PSt} {n a k s'} (h : Go W conv n (.a a :: k) s s') (e : Pda.act (room W s) conv a s = .syntax) : False := by
  obtain ⟨_, e', _⟩ := h.a
  rw [e] at e'; cases e'

/-- The result of an action that is known with sizes large enough. -/
theorem Go.aE {s s1 : PSt} {n a k s'} (h : Go W conv n (.a a :: k) s s') (V F : Nat) (e : Pda.act ⟨W, V, F⟩ conv a s = .ok s1)
    (hV : s.vals.length + 2 ≤ V) (hF : s.formals.length + 1 ≤ F) : Go W conv n k s1 s' := by
  obtain ⟨s2, e2, g⟩ := h.a
  rw [act_room (z := room W s) (z' := ⟨W, V, F⟩) rfl (Nat.le_refl _) hV (Nat.le_refl _) hF, e] at e2
  cases e2
  exact g

theorem Go.nt' {s : PSt} {n x k tl b s' p} (h : Go W conv (n + 1) (.n x :: k) (s.lk tl b) s') (e : Pda.prod x (hd tl).1 = some p) :
    Go W conv n (p ++ k) (s.lk tl b) s' := by
  obtain ⟨p', e', g⟩ := h.nt
  rw [e] at e'
  cases e'
  exact g

theorem Go.tkc {s : PSt} {n x k t tl b s'} (h : Go W conv n (.t x :: k) (s.lk (t :: tl) b) s') : Go W conv n k (s.ul tl t b) s' := by
  obtain ⟨t', tl', e, _, g⟩ := h.tk
  cases e
  exact g

theorem Go.actU {s : PSt} {n a k ts t b s'} (h : Go W conv n (.a a :: k) (s.ul ts t b) s') (s1 : PSt) (b' : Buf)
    (e : Pda.act (room W (s.ul ts t b)) conv a (s.ul ts t b) = .ok (s1.ul ts t b')) : Go W conv n k (s1.ul ts t b') s' :=
  h.aE _ _ e (Nat.le_refl _) (Nat.le_refl _)

theorem Go.actL {s : PSt} {n a k ts b s'} (h : Go W conv n (.a a :: k) (s.lk ts b) s') (s1 : PSt) (b' : Buf)
    (e : Pda.act (room W (s.lk ts b)) conv a (s.lk ts b) = .ok (s1.lk ts b')) : Go W conv n k (s1.lk ts b') s' :=
  h.aE _ _ e (Nat.le_refl _) (Nat.le_refl _)

theorem Go.pushU {s : PSt} {n a k ts t b b' v s'} (h : Go W conv n (.a a :: k) (s.ul ts t b) s')
    (e : Pda.act (room W (s.ul ts t b)) conv a (s.ul ts t b) = .ok ((s.ul ts t b').push (room W (s.ul ts t b)) v)) :
    Go W conv n k ((s.with (v :: s.vals)).ul ts t b') s' :=
  h.aE _ _ (e.trans (congrArg ARes.ok (push_room (s := s.ul ts t b') (show s.vals.length < s.vals.length + 2 by omega)))) (Nat.le_refl _) (Nat.le_refl _)

theorem Go.pushL {s : PSt} {n a k ts b b' v s'} (h : Go W conv n (.a a :: k) (s.lk ts b) s')
    (e : Pda.act (room W (s.lk ts b)) conv a (s.lk ts b) = .ok ((s.lk ts b').push (room W (s.lk ts b)) v)) :
    Go W conv n k ((s.with (v :: s.vals)).lk ts b') s' :=
  h.aE _ _ (e.trans (congrArg ARes.ok (push_room (s := s.lk ts b') (show s.vals.length < s.vals.length + 2 by omega)))) (Nat.le_refl _) (Nat.le_refl _)

end Snek.Pda
