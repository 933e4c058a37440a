import Verif.Model.Val
import Verif.Spec.Scope
/-! Frames refine scopes. -/
namespace Snek
open Spec

variable {α γ : Type}

/-- First value stored under `x`. -/
def look (vars : List (Var α)) (x : Nat) : Option α := (vars.find? (fun v => v.id = x)).map (·.value)

/-- Laws of the marker. -/
class LawfulFrameVal (α : Type) [FrameVal α] : Prop where
  zero : FrameVal.isGlobal (FrameVal.zero : α) = false
  global : FrameVal.isGlobal (FrameVal.global : α) = true

instance : LawfulFrameVal Poly := ⟨by decide, by decide⟩
instance : LawfulFrameVal Store.Val := ⟨by decide, by decide⟩

theorem varIndex_cons (a : Var α) (l : List (Var α)) (x : Nat) :
    varIndex (a :: l) x = if a.id = x then some 0 else (varIndex l x).map (· + 1) := by
  unfold varIndex
  rw [List.findIdx?_cons]
  by_cases h : a.id = x <;> simp [h]

theorem look_cons (a : Var α) (l : List (Var α)) (x : Nat) :
    look (a :: l) x = if a.id = x then some a.value else look l x := by
  unfold look
  by_cases h : a.id = x <;> simp [h]

theorem look_none {l : List (Var α)} {x : Nat} : varIndex l x = none ↔ look l x = none := by
  induction l with
  | nil => simp [varIndex, look]
  | cons a l ih =>
    rw [varIndex_cons, look_cons]
    by_cases h : a.id = x
    · simp [h]
    · simp [h, ih]

theorem look_some {l : List (Var α)} {x i : Nat} (h : varIndex l x = some i) : ∃ v, l[i]? = some v ∧ v.id = x ∧ look l x = some v.value := by
  induction l generalizing i with
  | nil => simp [varIndex] at h
  | cons a l ih =>
    rw [varIndex_cons] at h
    by_cases hx : a.id = x
    · rw [if_pos hx] at h; cases h
      exact ⟨a, rfl, hx, by rw [look_cons, if_pos hx]⟩
    · rw [if_neg hx] at h
      cases hi : varIndex l x with
      | none => rw [hi] at h; simp at h
      | some j =>
        rw [hi] at h; simp at h; subst h
        obtain ⟨v, h1, h2, h3⟩ := ih hi
        exact ⟨v, by simpa using h1, h2, by rw [look_cons, if_neg hx, h3]⟩

theorem look_set {l : List (Var α)} {x i : Nat} (v : α) (h : varIndex l x = some i) :
    look (setVar l i v) = upd (look l) x (some v) := by
  induction l generalizing i with
  | nil => simp [varIndex] at h
  | cons a l ih =>
    rw [varIndex_cons] at h
    funext y
    by_cases hx : a.id = x
    · rw [if_pos hx] at h; cases h
      have : setVar (a :: l) 0 v = { a with value := v } :: l := by simp [setVar, List.modify_zero_cons]
      rw [this, look_cons]
      unfold upd
      rw [look_cons]
      simp only [hx]
      by_cases hy : x = y
      · subst hy; simp
      · simp [hy, Ne.symm hy]
    · rw [if_neg hx] at h
      cases hi : varIndex l x with
      | none => rw [hi] at h; simp at h
      | some j =>
        rw [hi] at h; simp at h; subst h
        have e : setVar (a :: l) (j + 1) v = a :: setVar l j v := by simp [setVar, List.modify_succ_cons]
        rw [e, look_cons, ih hi]
        unfold upd
        rw [look_cons]
        by_cases hy : y = x
        · subst hy; simp [hx]
        · simp [hy]

theorem look_append {l : List (Var α)} {x : Nat} (v : α) (h : varIndex l x = none) :
    look (l ++ [⟨v, x⟩]) = upd (look l) x (some v) := by
  funext y
  rw [look_none] at h
  unfold upd
  by_cases hy : y = x
  · subst hy
    rw [if_pos rfl]
    unfold look at h ⊢
    simp only [Option.map_eq_none_iff] at h
    rw [List.find?_append, h]; simp
  · rw [if_neg hy]
    unfold look
    rw [List.find?_append]
    cases l.find? (fun v => v.id = y) with
    | some w => rfl
    | none => simp [Ne.symm hy]

theorem varIndex_append {l : List (Var α)} {x : Nat} (v : α) (h : varIndex l x = none) :
    varIndex (l ++ [⟨v, x⟩]) x = some l.length := by
  induction l with
  | nil => simp [varIndex]
  | cons a l ih =>
    rw [varIndex_cons] at h
    by_cases hx : a.id = x
    · simp [hx] at h
    · rw [if_neg hx] at h
      rw [List.cons_append, varIndex_cons, if_neg hx, ih (by simpa using h)]
      simp

/-- What a frame says about a name. -/
def absLocal [FrameVal α] (vars : List (Var α)) (x : Nat) : LocalName α :=
  match look vars x with
  | none => .absent
  | some v => if FrameVal.isGlobal v then .declaredGlobal else .value v

/-- The scope a frame state represents. -/
def Frames.abs [FrameVal α] (s : Frames α γ) : Scope α := ⟨look s.globals, s.frames.map (fun f => absLocal f.vars)⟩

theorem absLocal_upd [FrameVal α] {l l' : List (Var α)} {x : Nat} {v : α} (h : look l' = upd (look l) x (some v)) :
    absLocal l' = upd (absLocal l) x (if FrameVal.isGlobal v then .declaredGlobal else .value v) := by
  funext y
  unfold absLocal
  rw [h]
  unfold upd
  by_cases hy : y = x <;> simp [hy]

/-- Storing in the global frame. -/
theorem store_glob [FrameVal α] (s : Frames α γ) (x : Nat) (v : α) :
    ∃ l s', variableLookup s true x true true = (some l, s') ∧
      look (s'.set l v).globals = upd (look s.globals) x (some v) ∧
      (s'.set l v).frames = s.frames := by
  unfold variableLookup pickFrame
  simp only [if_true]
  cases h : varIndex s.globals x with
  | some i =>
    refine ⟨_, _, rfl, ?_, ?_⟩
    · simp [mkLoc, Frames.set, look_set v h]
    · simp [mkLoc, Frames.set]
  | none =>
    refine ⟨_, _, rfl, ?_, ?_⟩
    · have h2 := varIndex_append (FrameVal.zero : α) h
      simp only [mkLoc, if_true, Frames.set, putFrame, look_set v h2, look_append _ h]
      funext y; unfold upd; split <;> rfl
    · simp [mkLoc, Frames.set, putFrame]

theorem idStore_abs [FrameVal α] [LawfulFrameVal α] (s : Frames α γ) (x : Nat) (v : α) (hv : FrameVal.isGlobal v = false) :
    (idStore s x v true true).1 = true ∧ (idStore s x v true true).2.abs = s.abs.step (.assign x v) := by
  unfold idStore idRef frameLookup
  obtain ⟨g, frs⟩ := s
  cases frs with
  | nil =>
    have : variableLookup (⟨g, []⟩ : Frames α γ) false x true true = (none, ⟨g, []⟩) := by
      simp [variableLookup, pickFrame]
    rw [this]
    simp only []
    obtain ⟨l, s', h1, h2, h3⟩ := store_glob (⟨g, []⟩ : Frames α γ) x v
    rw [h1]
    refine ⟨rfl, ?_⟩
    simp only [Frames.abs, h2, h3, Scope.step, List.map_nil]
  | cons f fs =>
    have key : ∀ (s' : Frames α γ), s'.abs = Frames.abs ⟨g, f :: fs⟩ → absLocal f.vars x = .declaredGlobal →
        (match variableLookup s' true x true true with
          | (none, s') => (false, s')
          | (some l, s') => (true, s'.set l v)).1 = true ∧
        (match variableLookup s' true x true true with
          | (none, s') => (false, s')
          | (some l, s') => (true, s'.set l v)).2.abs = (Frames.abs ⟨g, f :: fs⟩).step (.assign x v) := by
      intro s' hs hd
      obtain ⟨l, s'', h1, h2, h3⟩ := store_glob s' x v
      rw [h1]
      refine ⟨rfl, ?_⟩
      rw [← hs]
      have hs1 := congrArg Scope.locs hs
      simp only [Frames.abs, List.map_cons] at hs1
      simp only [Frames.abs, h2, h3, Scope.step, hs1, hd]
    cases h : varIndex f.vars x with
    | some i =>
      obtain ⟨w, hw, hid, hl⟩ := look_some h
      have e : variableLookup (⟨g, f :: fs⟩ : Frames α γ) false x true true = (some (.local i), ⟨g, f :: fs⟩) := by
        simp [variableLookup, pickFrame, h, mkLoc]
      rw [e]
      simp only [Frames.get, List.head?_cons, Option.map_some, Option.getD_some, hw]
      by_cases hg : FrameVal.isGlobal w.value = true
      · rw [if_pos hg]
        exact key _ rfl (by simp [absLocal, hl, hg])
      · rw [if_neg hg]
        refine ⟨rfl, ?_⟩
        have e2 := absLocal_upd (look_set v h)
        rw [hv] at e2
        simp only [Frames.set, Frames.abs, Scope.step, List.map_cons, absLocal, hl, hg] 
        have e3 : (fun x => match look (setVar f.vars i v) x with
          | none => LocalName.absent
          | some v => if FrameVal.isGlobal v = true then .declaredGlobal else .value v) = absLocal (setVar f.vars i v) := rfl
        simp only [Bool.false_eq_true, if_false]
        show (⟨look g, absLocal (setVar f.vars i v) :: _⟩ : Scope α) = _
        rw [e2]
        rfl
    | none =>
      have e : variableLookup (⟨g, f :: fs⟩ : Frames α γ) false x true true =
          (some (.local f.vars.length), ⟨g, { f with vars := f.vars ++ [⟨FrameVal.zero, x⟩] } :: fs⟩) := by
        simp [variableLookup, pickFrame, h, mkLoc, putFrame]
      rw [e]
      have hn := look_none.1 h
      simp only [Frames.get, List.head?_cons, Option.map_some, Option.getD_some, List.getElem?_append_right (Nat.le_refl _),
        Nat.sub_self, List.getElem?_cons_zero, LawfulFrameVal.zero, Bool.false_eq_true, if_false]
      refine ⟨trivial, ?_⟩
      have h2 := varIndex_append (FrameVal.zero : α) h
      have h3 : look (setVar (f.vars ++ [⟨FrameVal.zero, x⟩]) f.vars.length v) = upd (look f.vars) x (some v) := by
        rw [look_set v h2, look_append _ h]
        funext y; unfold upd; split <;> rfl
      have e2 := absLocal_upd h3
      rw [hv] at e2
      simp only [Bool.false_eq_true, if_false] at e2
      have e4 : absLocal f.vars x = .absent := by simp [absLocal, hn]
      simp only [Frames.set, Frames.abs, Scope.step, List.map_cons, e4, e2]

theorem markGlobal_abs [FrameVal α] [LawfulFrameVal α] (s : Frames α γ) (x : Nat) :
    (markGlobal s x true).abs = s.abs.step (.declareGlobal x) := by
  obtain ⟨g, frs⟩ := s
  cases frs with
  | nil => rfl
  | cons f fs =>
    have fin : ∀ l', look l' = upd (look f.vars) x (some (FrameVal.global : α)) →
        Frames.abs (⟨g, { f with vars := l' } :: fs⟩ : Frames α γ) = (Frames.abs ⟨g, f :: fs⟩).step (.declareGlobal x) := by
      intro l' h
      have e2 := absLocal_upd h
      rw [LawfulFrameVal.global] at e2
      simp only [if_true] at e2
      simp only [Frames.abs, Scope.step, List.map_cons, e2]
    unfold markGlobal
    simp only []
    cases h : varIndex f.vars x with
    | some i =>
      have e : variableLookup (⟨g, f :: fs⟩ : Frames α γ) false x true true = (some (.local i), ⟨g, f :: fs⟩) := by
        simp [variableLookup, pickFrame, h, mkLoc]
      rw [e]
      exact fin _ (look_set _ h)
    | none =>
      have e : variableLookup (⟨g, f :: fs⟩ : Frames α γ) false x true true =
          (some (.local f.vars.length), ⟨g, { f with vars := f.vars ++ [⟨FrameVal.zero, x⟩] } :: fs⟩) := by
        simp [variableLookup, pickFrame, h, mkLoc, putFrame]
      rw [e]
      have h2 := varIndex_append (FrameVal.zero : α) h
      refine fin _ ?_
      rw [look_set _ h2, look_append _ h]
      funext y; unfold upd; split <;> rfl

/-- Reading a name (`snek_op_id`, snek-exec.c:836-853, before the builtin fallback). -/
def idRead [FrameVal α] (s : Frames α γ) (x : Nat) : Option α := (idRef s x false false false).1.map s.get

theorem idRead_abs [FrameVal α] (s : Frames α γ) (x : Nat) : idRead s x = s.abs.read x := by
  obtain ⟨g, frs⟩ := s
  have glob : ∀ frs : List (Frame α γ), (variableLookup (⟨g, frs⟩ : Frames α γ) true x false false).1.map
      (Frames.get (⟨g, frs⟩ : Frames α γ)) = look g x := by
    intro frs
    unfold variableLookup pickFrame
    simp only [if_true]
    cases h : varIndex g x with
    | some i =>
      obtain ⟨w, hw, hid, hl⟩ := look_some h
      simp [mkLoc, Frames.get, hw, hl]
    | none => simp [look_none.1 h]
  unfold idRead idRef frameLookup
  cases frs with
  | nil =>
    have : variableLookup (⟨g, []⟩ : Frames α γ) false x false false = (none, ⟨g, []⟩) := by
      simp [variableLookup, pickFrame]
    rw [this]
    simp only [glob]; rfl
  | cons f fs =>
    cases h : varIndex f.vars x with
    | some i =>
      obtain ⟨w, hw, hid, hl⟩ := look_some h
      have e : variableLookup (⟨g, f :: fs⟩ : Frames α γ) false x false false = (some (.local i), ⟨g, f :: fs⟩) := by
        simp [variableLookup, pickFrame, h, mkLoc]
      rw [e]
      have hget : Frames.get (⟨g, f :: fs⟩ : Frames α γ) (.local i) = w.value := by simp [Frames.get, hw]
      simp only [hget]
      by_cases hg : FrameVal.isGlobal w.value = true
      · rw [if_pos hg, glob]
        simp [Frames.abs, Scope.read, absLocal, hl, hg]
      · rw [if_neg hg]
        simp [Frames.abs, Scope.read, absLocal, hl, hg, hget]
    | none =>
      have e : variableLookup (⟨g, f :: fs⟩ : Frames α γ) false x false false = (none, ⟨g, f :: fs⟩) := by
        simp [variableLookup, pickFrame, h]
      rw [e]
      simp only [glob]
      simp [Frames.abs, Scope.read, absLocal, look_none.1 h]

end Snek
