import Verif.Spec.Lang
/-!
# Variables of the evaluator and of the machine

The evaluator's state has only the running function's variables; the machine's frames also hold where to continue. All
operations on variables commute with adding that information.
-/
namespace Snek.Lang
open Store (Val)
open Snek.Vm

/-- Where the running function was called from. -/
structure Ctx where
  code : List UInt8
  ip : Nat
  rest : List (Frame Val (List UInt8))

/-- Add the return information. -/
def emb (c : Ctx) (fr : Frames Val Unit) : Frames Val (List UInt8) :=
  ⟨fr.globals, match fr.frames with | [] => [] | f :: _ => ⟨f.vars, c.code, c.ip⟩ :: c.rest⟩

variable {σ : Type} (c : Ctx) (fr : Frames Val Unit)

@[simp] theorem emb_globals : (emb c fr).globals = fr.globals := rfl

@[simp] theorem emb_isEmpty : (emb c fr).frames.isEmpty = fr.frames.isEmpty := by
  unfold emb; cases fr.frames <;> rfl

@[simp] theorem emb_pick (b : Bool) : pickFrame (emb c fr) b = pickFrame fr b := by
  unfold pickFrame emb; cases b <;> simp; cases fr.frames <;> rfl

@[simp] theorem emb_put (b : Bool) (v : List (Var Val)) : putFrame (emb c fr) b v = emb c (putFrame fr b v) := by
  unfold putFrame emb
  cases b <;> simp
  cases h : fr.frames <;> simp [h]

@[simp] theorem emb_get (l : VLoc) : (emb c fr).get l = fr.get l := by
  cases l <;> simp [Frames.get, emb]; cases fr.frames <;> rfl

@[simp] theorem emb_set (l : VLoc) (v : Val) : (emb c fr).set l v = emb c (fr.set l v) := by
  cases l <;> simp [Frames.set, emb]; cases h : fr.frames <;> simp [h]

@[simp] theorem emb_varLookup (b : Bool) (x : Nat) (i o : Bool) :
    variableLookup (emb c fr) b x i o = ((variableLookup fr b x i o).1, emb c (variableLookup fr b x i o).2) := by
  unfold variableLookup
  rw [emb_pick]
  cases pickFrame fr b with
  | none => rfl
  | some vars =>
    simp only []
    cases varIndex vars x with
    | some _ => rfl
    | none => simp only []; split <;> simp

@[simp] theorem emb_frameLookup (x : Nat) (i o g : Bool) :
    frameLookup (emb c fr) x i o g = ((frameLookup fr x i o g).1, emb c (frameLookup fr x i o g).2) := by
  unfold frameLookup
  rw [emb_varLookup]
  rcases h : variableLookup fr false x i o with ⟨l, fr'⟩
  cases l with
  | none => simp
  | some l => simp only [emb_get]; split <;> simp

@[simp] theorem emb_isLocalId (x : Nat) : isLocalId (emb c fr) x = isLocalId fr x := by
  unfold isLocalId; simp

@[simp] theorem emb_makesLocal (x : Nat) : makesLocal (emb c fr) x = makesLocal fr x := by
  unfold makesLocal; simp

@[simp] theorem emb_idStore (x : Nat) (v : Val) (o g : Bool) :
    idStore (emb c fr) x v o g = ((idStore fr x v o g).1, emb c (idStore fr x v o g).2) := by
  unfold idStore idRef
  rw [emb_frameLookup]
  rcases frameLookup fr x true o g with ⟨l, fr'⟩
  cases l <;> simp

@[simp] theorem emb_loadId (x : Nat) : loadId (emb c fr) x = loadId fr x := by
  unfold loadId
  rw [emb_frameLookup]
  rcases frameLookup fr x false false false with ⟨l, fr'⟩
  cases l <;> simp

@[simp] theorem emb_loadName (P : Prim σ) (x : Nat) : loadName P (emb c fr) x = loadName P fr x := by
  unfold loadName; simp

@[simp] theorem emb_storeId (P : Prim σ) (w : σ) (x : Nat) (v : Val) :
    storeId P (emb c fr) w x v = ((storeId P fr w x v).1, emb c (storeId P fr w x v).2.1, (storeId P fr w x v).2.2) := by
  unfold storeId; simp

@[simp] theorem emb_assignId (P : Prim σ) (a : AOp) (x : Nat) (v : Val) (w : σ) :
    assignId P a x v (emb c fr) w =
      ((assignId P a x v fr w).1, emb c (assignId P a x v fr w).2.1, (assignId P a x v fr w).2.2) := by
  have hp : ∀ v w, plainStore P (emb c fr) x v w =
      ((plainStore P fr x v w).1, emb c (plainStore P fr x v w).2.1, (plainStore P fr x v w).2.2) := by
    intro v w
    unfold plainStore
    rw [emb_storeId]
  unfold assignId
  cases a with
  | plain => exact hp v w
  | named =>
    simp only [emb_isLocalId]
    split
    · rfl
    · exact hp v w
  | aug op =>
    simp only [emb_makesLocal, emb_loadId]
    split
    · rfl
    · split
      · rfl
      · simp only [hp]

@[simp] theorem emb_markGlobal (x : Nat) (o : Bool) : markGlobal (emb c fr) x o = emb c (markGlobal fr x o) := by
  unfold markGlobal
  rw [emb_varLookup]
  cases h : fr.frames with
  | nil => simp [emb, h]
  | cons f fs =>
    have : (emb c fr).frames = ⟨f.vars, c.code, c.ip⟩ :: c.rest := by simp [emb, h]
    simp only [this]
    rcases variableLookup fr false x true o with ⟨l, fr'⟩
    cases l <;> simp

@[simp] theorem emb_idDel (B : VarBytes Val) (x : Nat) : (idDel B (emb c fr) x).2 = emb c (idDel B fr x).2 := by
  unfold idDel
  simp only [emb_globals]
  split <;> rfl

@[simp] theorem emb_rangeStart (P : Prim σ) (x : Nat) (d : UInt8) (args : List Val) (w : σ) :
    rangeStart P x d args (emb c fr) w =
      ((rangeStart P x d args fr w).1, emb c (rangeStart P x d args fr w).2.1, (rangeStart P x d args fr w).2.2) := by
  unfold rangeStart
  simp only [emb_storeId]
  split <;> try rfl
  split <;> rfl

@[simp] theorem emb_rangeStep (P : Prim σ) (x : Nat) (d : UInt8) :
    rangeStep P x d (emb c fr) = ((rangeStep P x d fr).1, emb c (rangeStep P x d fr).2) := by
  unfold rangeStep
  simp only [emb_frameLookup]
  split
  · simp only [emb_get, emb_set]
    split
    · rfl
    · repeat' split
      all_goals rfl
  · rfl

@[simp] theorem emb_inStep (P : Prim σ) (x : Nat) (d : UInt8) (w : σ) :
    inStep P x d (emb c fr) w = ((inStep P x d fr w).1, emb c (inStep P x d fr w).2.1, (inStep P x d fr w).2.2) := by
  unfold inStep
  simp only [emb_frameLookup]
  split
  · simp only [emb_get, emb_set]
    split
    · rfl
    · split
      · rfl
      · split
        · rfl
        · simp only [emb_storeId]
          rcases storeId P _ _ x _ with ⟨b, fr', w'⟩
          cases b <;> rfl
  · rfl

/-! ## The number of frames never changes -/

/-- The same frames, up to their variables. -/
def SameTop (a b : Frames Val Unit) : Prop := a.frames.map (·.ip) = b.frames.map (·.ip)

theorem SameTop.rfl' {a} : SameTop a a := rfl
theorem SameTop.trans {a b c} (h1 : SameTop a b) (h2 : SameTop b c) : SameTop a c := Eq.trans h1 h2

theorem SameTop.isEmpty {a b} (h : SameTop a b) : a.frames.isEmpty = b.frames.isEmpty := by
  have := congrArg List.isEmpty h
  simpa using this

theorem top_put (b : Bool) (v : List (Var Val)) : SameTop fr (putFrame fr b v) := by
  unfold SameTop putFrame; cases b <;> simp; cases h : fr.frames <;> simp [h]

theorem top_set (l : VLoc) (v : Val) : SameTop fr (fr.set l v) := by
  unfold SameTop; cases l <;> simp [Frames.set]; cases h : fr.frames <;> simp [h]

theorem top_varLookup (b : Bool) (x : Nat) (i o : Bool) : SameTop fr (variableLookup fr b x i o).2 := by
  unfold variableLookup
  split
  · exact .rfl'
  · split
    · exact .rfl'
    · split
      · exact top_put _ _ _
      · exact .rfl'

theorem top_frameLookup (x : Nat) (i o g : Bool) : SameTop fr (frameLookup fr x i o g).2 := by
  unfold frameLookup
  have h := top_varLookup fr false x i o
  rcases hh : variableLookup fr false x i o with ⟨l, fr'⟩
  rw [hh] at h
  cases l with
  | none => exact h.trans (top_varLookup _ _ _ _ _)
  | some l => simp only []; split; exact h.trans (top_varLookup _ _ _ _ _); exact h

theorem top_idStore (x : Nat) (v : Val) (o g : Bool) : SameTop fr (idStore fr x v o g).2 := by
  unfold idStore idRef
  have h := top_frameLookup fr x true o g
  rcases hh : frameLookup fr x true o g with ⟨l, fr'⟩
  rw [hh] at h
  cases l with
  | none => exact h
  | some l => exact h.trans (top_set _ _ _)

theorem top_storeId (P : Prim σ) (w : σ) (x : Nat) (v : Val) : SameTop fr (storeId P fr w x v).2.1 := by
  unfold storeId; exact top_idStore _ _ _ _ _

theorem top_assignId (P : Prim σ) (a : AOp) (x : Nat) (v : Val) (w : σ) : SameTop fr (assignId P a x v fr w).2.1 := by
  have hp : ∀ v w, SameTop fr (plainStore P fr x v w).2.1 := fun v w => top_storeId fr P w x v
  unfold assignId
  cases a with
  | plain => exact hp v w
  | named => simp only []; split; exact .rfl'; exact hp v w
  | aug op =>
    simp only []
    split
    · exact .rfl'
    · split
      · exact .rfl'
      · exact hp _ _

theorem top_markGlobal (x : Nat) (o : Bool) : SameTop fr (markGlobal fr x o) := by
  unfold markGlobal
  split
  · exact .rfl'
  · have h := top_varLookup fr false x true o
    rcases hh : variableLookup fr false x true o with ⟨l, fr'⟩
    rw [hh] at h
    cases l with
    | none => exact h
    | some l => exact h.trans (top_set _ _ _)

theorem top_idDel (B : VarBytes Val) (x : Nat) : SameTop fr (idDel B fr x).2 := by
  unfold idDel; split <;> rfl

theorem top_rangeStart (P : Prim σ) (x : Nat) (d : UInt8) (args : List Val) (w : σ) :
    SameTop fr (rangeStart P x d args fr w).2.1 := by
  unfold rangeStart
  have h3 : ∀ v1 v2 v3 y1 y2 y3, SameTop fr
      (storeId P (storeId P (storeId P fr w y1 v1).2.1 (storeId P fr w y1 v1).2.2 y2 v2).2.1
        (storeId P (storeId P fr w y1 v1).2.1 (storeId P fr w y1 v1).2.2 y2 v2).2.2 y3 v3).2.1 :=
    fun v1 v2 v3 y1 y2 y3 => ((top_storeId _ _ _ _ _).trans (top_storeId _ _ _ _ _)).trans (top_storeId _ _ _ _ _)
  split
  · exact h3 _ _ _ _ _ _
  · exact h3 _ _ _ _ _ _
  · simp only []; split
    · exact .rfl'
    · exact h3 _ _ _ _ _ _
  · exact .rfl'

theorem top_rangeStep (P : Prim σ) (x : Nat) (d : UInt8) : SameTop fr (rangeStep P x d fr).2 := by
  unfold rangeStep
  split
  · simp only []
    split
    · exact top_set _ _ _
    · repeat' split
      all_goals exact top_set _ _ _
  · exact .rfl'

theorem top_inStep (P : Prim σ) (x : Nat) (d : UInt8) (w : σ) : SameTop fr (inStep P x d fr w).2.1 := by
  unfold inStep
  split
  · simp only []
    split
    · exact top_set _ _ _
    · split
      · exact top_set _ _ _
      · split
        · exact top_set _ _ _
        · split
          · rename_i h; have h2 := congrArg (fun r => r.2.1) h; simp only [] at h2; rw [← h2]
            exact (top_set _ _ _).trans (top_storeId _ _ _ _ _)
          · rename_i h; have h2 := congrArg (fun r => r.2.1) h; simp only [] at h2; rw [← h2]
            exact (top_set _ _ _).trans (top_storeId _ _ _ _ _)
  · exact .rfl'

end Snek.Lang
