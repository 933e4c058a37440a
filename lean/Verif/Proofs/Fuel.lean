import Verif.Spec.Lang
/-!
# More fuel does not change a result
-/
namespace Snek.Lang
open Store (Val)
open Snek.Vm

variable {σ α β : Type}

/-- `b` is `a`, unless `a` ran out of fuel. -/
def R.le (a b : R σ α) : Prop := a.cut = true ∨ a = b

theorem R.le_refl (a : R σ α) : R.le a a := .inr rfl
theorem R.le_time {g w} (a : R σ α) : R.le (.time g w) a := .inl rfl

theorem R.le_trans {a b c : R σ α} (h1 : R.le a b) (h2 : R.le b c) : R.le a c := by
  rcases h1 with h | rfl
  · exact .inl h
  · exact h2

theorem R.le_bind {a b : R σ α} {k k' : α → St σ → R σ β} (h : R.le a b) (hk : ∀ x s, R.le (k x s) (k' x s)) :
    R.le (a.bind k) (b.bind k') := by
  rcases h with h | rfl
  · cases a with
    | time g w => exact .inl rfl
    | _ => simp [R.cut] at h
  · cases a with
    | ok x s => exact hk x s
    | err => exact .inr rfl
    | over => exact .inr rfl
    | time => exact .inl rfl

theorem R.bind_cut {a : R σ α} {k : α → St σ → R σ β} (h : a.cut = true) : (a.bind k).cut = true := by
  cases a with
  | time g w => rfl
  | _ => simp [R.cut] at h

theorem R.le_room {P : Prim σ} {d : Nat} {a b : R σ α} (h : R.le a b) : R.le (needRoom P d a) (needRoom P d b) := by
  unfold needRoom; split
  · exact h
  · exact .inr rfl

theorem R.le_ite {c : Prop} [Decidable c] {a b a' b' : R σ α} (h1 : R.le a a') (h2 : R.le b b') :
    R.le (if c then a else b) (if c then a' else b') := by
  split
  · exact h1
  · exact h2

variable (P : Prim σ) (defs : Nat → FunDef)

/-- One more unit of fuel, for all parts of the evaluator. -/
def Mono (n : Nat) : Prop :=
  (∀ d e s, R.le (evalE P defs n d e s) (evalE P defs (n + 1) d e s)) ∧
  (∀ d x r b more s, R.le (evalChain P defs n d x r b more s) (evalChain P defs (n + 1) d x r b more s)) ∧
  (∀ d o s, R.le (evalOpt P defs n d o s) (evalOpt P defs (n + 1) d o s)) ∧
  (∀ d es s, R.le (evalArgs P defs n d es s) (evalArgs P defs (n + 1) d es s)) ∧
  (∀ d es s, R.le (evalNamed P defs n d es s) (evalNamed P defs (n + 1) d es s)) ∧
  (∀ d fv pos nm s, R.le (callV P defs n d fv pos nm s) (callV P defs (n + 1) d fv pos nm s)) ∧
  (∀ d ds s, R.le (evalDefaults P defs n d ds s) (evalDefaults P defs (n + 1) d ds s)) ∧
  (∀ d fd t s, R.le (execS P defs n d fd t s) (execS P defs (n + 1) d fd t s)) ∧
  (∀ d fd t s, R.le (execElse P defs n d fd t s) (execElse P defs (n + 1) d fd t s)) ∧
  (∀ d fd c b e s, R.le (execWhile P defs n d fd c b e s) (execWhile P defs (n + 1) d fd c b e s)) ∧
  (∀ d fd x b e s, R.le (execRange P defs n d fd x b e s) (execRange P defs (n + 1) d fd x b e s)) ∧
  (∀ d fd x b e s, R.le (execIn P defs n d fd x b e s) (execIn P defs (n + 1) d fd x b e s))

theorem mono (n : Nat) : Mono P defs n := by
  induction n with
  | zero =>
    refine ⟨?_, ?_, ?_, ?_, ?_, ?_, ?_, ?_, ?_, ?_, ?_, ?_⟩ <;> intros <;>
      simp only [evalE, evalChain, evalOpt, evalArgs, evalNamed, callV, evalDefaults, execS, execElse, execWhile, execRange, execIn] <;>
      exact R.le_time _
  | succ n ih =>
    obtain ⟨hE, hCh, hO, hA, hN, hC, hD, hS, hEl, hW, hR, hI⟩ := ih
    refine ⟨?_, ?_, ?_, ?_, ?_, ?_, ?_, ?_, ?_, ?_, ?_, ?_⟩
    · intro d e s
      cases e with
      | num u => (simp only [evalE, evalOpt, evalArgs, evalNamed, evalDefaults, execS, execElse]; exact R.le_refl _)
      | str o => (simp only [evalE, evalOpt, evalArgs, evalNamed, evalDefaults, execS, execElse]; exact R.le_refl _)
      | name x => (simp only [evalE, evalOpt, evalArgs, evalNamed, evalDefaults, execS, execElse]; exact R.le_refl _)
      | unary u e => cases u <;> simp only [evalE] <;> exact R.le_bind (hE _ _ _) fun _ _ => R.le_refl _
      | binary op a b =>
        simp only [evalE]
        exact R.le_bind (hE _ _ _) fun _ _ => R.le_room (R.le_bind (hE _ _ _) fun _ _ => R.le_refl _)
      | and a b => simp only [evalE]; exact R.le_bind (hE _ _ _) fun _ _ => R.le_ite (hE _ _ _) (R.le_refl _)
      | or a b => simp only [evalE]; exact R.le_bind (hE _ _ _) fun _ _ => R.le_ite (R.le_refl _) (hE _ _ _)
      | cmp a r b more => simp only [evalE]; exact R.le_bind (hE _ _ _) fun _ _ => hCh _ _ _ _ _ _
      | index a i =>
        simp only [evalE]
        exact R.le_bind (hE _ _ _) fun _ _ => R.le_room (R.le_bind (hE _ _ _) fun _ _ => R.le_refl _)
      | slice a b c t =>
        simp only [evalE]
        exact R.le_bind (hE _ _ _) fun _ _ => R.le_room (R.le_bind (hO _ _ _) fun _ _ => R.le_bind (hO _ _ _) fun _ _ =>
          R.le_bind (hO _ _ _) fun _ _ => R.le_refl _)
      | call f args named =>
        simp only [evalE]
        exact R.le_bind (hE _ _ _) fun _ _ => R.le_room (R.le_bind (hA _ _ _) fun _ _ => R.le_bind (hN _ _ _) fun _ _ => hC _ _ _ _ _)
      | build k es => simp only [evalE]; exact R.le_bind (hA _ _ _) fun _ _ => R.le_refl _
    · intro d x r b more s
      rw [evalChain, evalChain]
      refine R.le_room (R.le_bind (hE _ _ _) fun _ _ => R.le_bind (R.le_refl _) fun _ _ => ?_)
      cases more with
      | nil => (simp only [evalE, evalOpt, evalArgs, evalNamed, evalDefaults, execS, execElse]; exact R.le_refl _)
      | cons r c more => exact R.le_ite (hCh _ _ _ _ _ _) (R.le_refl _)
    · intro d o s
      cases o with
      | none => (simp only [evalE, evalOpt, evalArgs, evalNamed, evalDefaults, execS, execElse]; exact R.le_refl _)
      | some e => simp only [evalOpt]; exact R.le_bind (hE _ _ _) fun _ _ => R.le_refl _
    · intro d es s
      cases es with
      | nil => (simp only [evalE, evalOpt, evalArgs, evalNamed, evalDefaults, execS, execElse]; exact R.le_refl _)
      | cons e es =>
        simp only [evalArgs]
        exact R.le_bind (hE _ _ _) fun _ _ => R.le_room (R.le_bind (hA _ _ _) fun _ _ => R.le_refl _)
    · intro d es s
      cases es with
      | nil => (simp only [evalE, evalOpt, evalArgs, evalNamed, evalDefaults, execS, execElse]; exact R.le_refl _)
      | cons x e es =>
        simp only [evalNamed]
        exact R.le_room (R.le_bind (hE _ _ _) fun _ _ => R.le_room (R.le_bind (hN _ _ _) fun _ _ => R.le_refl _))
    · intro d fv pos nm s
      rw [callV, callV]
      cases fv.type with
      | builtin => exact R.le_refl _
      | func =>
        simp only []
        rcases P.frameAlloc s.w with ⟨_ | _, w⟩
        · exact R.le_refl _
        · simp only []
          cases funcBind (P.sig fv.ref) (P.beyond w) pos nm with
          | ok vars => exact R.le_bind (hD _ _ _) fun _ _ => R.le_bind (hS _ _ _ _) fun _ _ => R.le_refl _
          | _ => exact R.le_refl _
      | _ => exact R.le_refl _
    · intro d ds s
      cases ds with
      | nil => (simp only [evalE, evalOpt, evalArgs, evalNamed, evalDefaults, execS, execElse]; exact R.le_refl _)
      | cons x e rest =>
        simp only [evalDefaults]
        exact R.le_bind (hE _ _ _) fun _ _ => R.le_bind (R.le_refl _) fun _ _ => hD _ _ _
    · intro d fd t s
      cases t with
      | skip => (simp only [evalE, evalOpt, evalArgs, evalNamed, evalDefaults, execS, execElse]; exact R.le_refl _)
      | line => (simp only [evalE, evalOpt, evalArgs, evalNamed, evalDefaults, execS, execElse]; exact R.le_refl _)
      | seq a b =>
        simp only [execS]
        refine R.le_bind (hS _ _ _ _) fun f _ => ?_
        cases f
        · exact hS _ _ _ _
        all_goals exact R.le_refl _
      | expr e => simp only [execS]; exact R.le_bind (hE _ _ _) fun _ _ => R.le_refl _
      | assign op x e => simp only [execS]; exact R.le_bind (hE _ _ _) fun _ _ => R.le_refl _
      | assignIdx op a i e =>
        simp only [execS]
        exact R.le_bind (hE _ _ _) fun _ _ => R.le_room (R.le_bind (hE _ _ _) fun _ _ => R.le_room (R.le_bind (hE _ _ _) fun _ _ =>
          R.le_refl _))
      | ret o =>
        cases o with
        | none => (simp only [evalE, evalOpt, evalArgs, evalNamed, evalDefaults, execS, execElse]; exact R.le_refl _)
        | some e => simp only [execS]; exact R.le_bind (hE _ _ _) fun _ _ => R.le_refl _
      | brk => (simp only [evalE, evalOpt, evalArgs, evalNamed, evalDefaults, execS, execElse]; exact R.le_refl _)
      | cont => (simp only [evalE, evalOpt, evalArgs, evalNamed, evalDefaults, execS, execElse]; exact R.le_refl _)
      | global x => (simp only [evalE, evalOpt, evalArgs, evalNamed, evalDefaults, execS, execElse]; exact R.le_refl _)
      | del x => (simp only [evalE, evalOpt, evalArgs, evalNamed, evalDefaults, execS, execElse]; exact R.le_refl _)
      | delIdx a i =>
        simp only [execS]
        exact R.le_bind (hE _ _ _) fun _ _ => R.le_room (R.le_bind (hE _ _ _) fun _ _ => R.le_refl _)
      | assert e => simp only [execS]; exact R.le_bind (hE _ _ _) fun _ _ => R.le_refl _
      | ifs c t els => simp only [execS]; exact R.le_bind (hE _ _ _) fun _ _ => R.le_ite (hS _ _ _ _) (hEl _ _ _ _)
      | whil c body els => simp only [execS]; exact hW _ _ _ _ _ _
      | forRange x args body els =>
        simp only [execS]
        refine R.le_bind (hA _ _ _) fun l s => ?_
        rcases rangeStart P x (UInt8.ofNat fd) l s.fr s.w with ⟨_ | _, fr, w⟩
        · exact R.le_refl _
        · exact hR _ _ _ _ _ _
      | forIn x e body els =>
        simp only [execS]
        exact R.le_bind (hE _ _ _) fun _ _ => R.le_bind (R.le_refl _) fun _ _ => R.le_bind (R.le_refl _) fun _ _ => hI _ _ _ _ _ _
    · intro d fd t s
      cases t with
      | none => (simp only [evalE, evalOpt, evalArgs, evalNamed, evalDefaults, execS, execElse]; exact R.le_refl _)
      | els t => simp only [execElse]; exact hS _ _ _ _
      | elif l c t rest => simp only [execElse]; exact R.le_bind (hE _ _ _) fun _ _ => R.le_ite (hS _ _ _ _) (hEl _ _ _ _)
    · intro d fd c b e s
      rw [execWhile, execWhile]
      refine R.le_bind (hE _ _ _) fun _ _ => R.le_ite (R.le_bind (hS _ _ _ _) fun f _ => ?_) (hS _ _ _ _)
      cases f
      · exact hW _ _ _ _ _ _
      · exact R.le_refl _
      · exact hW _ _ _ _ _ _
      · exact R.le_refl _
    · intro d fd x b e s
      rw [execRange, execRange]
      rcases rangeStep P x (UInt8.ofNat fd) s.fr with ⟨_ | _ | _, fr⟩
      · refine R.le_bind (hS _ _ _ _) fun f _ => ?_
        cases f
        · exact hR _ _ _ _ _ _
        · exact R.le_refl _
        · exact hR _ _ _ _ _ _
        · exact R.le_refl _
      · exact hS _ _ _ _
      · exact R.le_refl _
    · intro d fd x b e s
      rw [execIn, execIn]
      rcases inStep P x (UInt8.ofNat fd) s.fr s.w with ⟨_ | _ | _, fr, w⟩
      · refine R.le_bind (hS _ _ _ _) fun f _ => ?_
        cases f
        · exact hI _ _ _ _ _ _
        · exact R.le_refl _
        · exact hI _ _ _ _ _ _
        · exact R.le_refl _
      · exact hS _ _ _ _
      · exact R.le_refl _

variable {P defs}

theorem evalE_more {n m : Nat} (h : n ≤ m) (d : Nat) (e : Expr) (s : St σ) : R.le (evalE P defs n d e s) (evalE P defs m d e s) := by
  induction h with
  | refl => exact R.le_refl _
  | step _ ih => exact R.le_trans ih ((mono P defs _).1 d e s)

theorem evalChain_more {n m : Nat} (h : n ≤ m) (d x r b more) (s : St σ) :
    R.le (evalChain P defs n d x r b more s) (evalChain P defs m d x r b more s) := by
  induction h with
  | refl => exact R.le_refl _
  | step _ ih => exact R.le_trans ih ((mono P defs _).2.1 d x r b more s)

theorem evalArgs_more {n m : Nat} (h : n ≤ m) (d es) (s : St σ) : R.le (evalArgs P defs n d es s) (evalArgs P defs m d es s) := by
  induction h with
  | refl => exact R.le_refl _
  | step _ ih => exact R.le_trans ih ((mono P defs _).2.2.2.1 d es s)

theorem execS_more {n m : Nat} (h : n ≤ m) (d fd t) (s : St σ) : R.le (execS P defs n d fd t s) (execS P defs m d fd t s) := by
  induction h with
  | refl => exact R.le_refl _
  | step _ ih => exact R.le_trans ih ((mono P defs _).2.2.2.2.2.2.2.1 d fd t s)

theorem evalDefaults_more {n m : Nat} (h : n ≤ m) (d ds) (s : St σ) :
    R.le (evalDefaults P defs n d ds s) (evalDefaults P defs m d ds s) := by
  induction h with
  | refl => exact R.le_refl _
  | step _ ih => exact R.le_trans ih ((mono P defs _).2.2.2.2.2.2.1 d ds s)

theorem R.le_eq {a b r : R σ α} (h : R.le a b) (ha : a = r) (hr : r.cut = false) : b = r := by
  rcases h with h | h
  · rw [ha, hr] at h; simp at h
  · rw [← h, ha]

end Snek.Lang
