import Verif.Proofs.Frame
/-!
# C23 Variable scoping

`Spec.Scope` says what assignments, `global`, calls and returns do to the bindings; the model's frames do exactly that, for
every history, and every read gives what the specification says.
-/
namespace Snek
open Spec

variable {γ : Type}

/-- The model's action for each statement (all allocations succeed). A call pushes the frame that binding produced (C25). -/
def scopeStep (code : γ) (s : Frames Poly γ) : ScopeOp Poly → Frames Poly γ
  | .assign x v => (idStore s x v true true).2
  | .declareGlobal x => markGlobal s x true
  | .call params => { s with frames := ⟨params.map (fun p => ⟨p.2, p.1⟩), code, 0⟩ :: s.frames }
  | .ret => (framePop s).2

/-- Values a program can compute: anything but the internal marker (C01). -/
def OpOk : ScopeOp Poly → Prop
  | .assign _ v => v ≠ GLOBAL_U
  | .call params => ∀ p ∈ params, p.2 ≠ GLOBAL_U
  | _ => True

private theorem look_params (params : List (Nat × Poly)) (h : ∀ p ∈ params, p.2 ≠ GLOBAL_U) :
    absLocal (params.map (fun p => (⟨p.2, p.1⟩ : Var Poly))) =
      paramLocals params := by
  funext x
  unfold absLocal look paramLocals
  rw [List.find?_map]
  have : ((fun v : Var Poly => decide (v.id = x)) ∘ fun p : Nat × Poly => (⟨p.2, p.1⟩ : Var Poly)) = fun p => decide (p.1 = x) := rfl
  rw [this]
  cases hf : params.find? (fun p => p.1 = x) with
  | none => rfl
  | some p =>
    have hp := h p (List.mem_of_find?_eq_some hf)
    have : FrameVal.isGlobal p.2 = false := by
      show Snek.isGlobal p.2 = false
      unfold Snek.isGlobal; exact beq_false_of_ne hp
    simp [this]

private theorem step_abs (code : γ) (s : Frames Poly γ) (op : ScopeOp Poly) (h : OpOk op) :
    (scopeStep code s op).abs = s.abs.step op := by
  cases op with
  | assign x v =>
    refine (idStore_abs s x v ?_).2
    show Snek.isGlobal v = false
    unfold Snek.isGlobal; exact beq_false_of_ne h
  | declareGlobal x => exact markGlobal_abs s x
  | call params =>
    simp only [scopeStep, Frames.abs, Scope.step, List.map_cons, look_params params h]
  | ret =>
    obtain ⟨g, frs⟩ := s
    cases frs with
    | nil => rfl
    | cons f fs => rfl

/-- A new frame has no variables, so that every name reads as it does at top level until the arguments are bound; popping it gives
back the place of the call and exactly the frames there were (also where binding fails, snek-func.c:136-142). -/
theorem C23_push_pop (s : Frames Poly γ) (code : γ) (ip n : Nat) :
    framePop (framePush s code ip n) = (some (code, ip), s) ∧
    ∀ x, x ≠ 0 → isLocalId (framePush s code ip n) x = false := by
  refine ⟨rfl, fun x hx => ?_⟩
  have h : varIndex (List.replicate n (⟨FrameVal.zero, 0⟩ : Var Poly)) x = none := by
    unfold varIndex
    rw [List.findIdx?_eq_none_iff]
    intro v hv
    rw [(List.mem_replicate.1 hv).2]
    simpa using fun h => hx h.symm
  simp [isLocalId, variableLookup, pickFrame, framePush, h]

/-- After every history of assignments, `global` declarations, calls and returns, reading any name gives exactly what the
scoping rules say (and is undefined exactly when they say so). -/
theorem C23_scoping (code : γ) (h : List (ScopeOp Poly)) (hok : ∀ op ∈ h, OpOk op) (x : Nat) :
    idRead (h.foldl (scopeStep code) ⟨[], []⟩) x = (Scope.run h Scope.empty).read x := by
  rw [idRead_abs]
  have : ∀ (h : List (ScopeOp Poly)) (s : Frames Poly γ), (∀ op ∈ h, OpOk op) →
      (h.foldl (scopeStep code) s).abs = Scope.run h s.abs := by
    intro h
    induction h with
    | nil => intro s _; rfl
    | cons op h ih =>
      intro s hh
      simp only [List.foldl_cons, Scope.run]
      rw [ih _ (fun o ho => hh o (by simp [ho])), step_abs code s op (hh op (by simp))]
      rfl
  rw [this h _ hok]
  rfl

/-- Consequences in the words of the property, for the scoping rules: a local assignment leaves every global alone, and no
assignment changes another name. -/
theorem C23_rules (s : Scope Poly) (f : Nat → LocalName Poly) (fs) (hs : s.locs = f :: fs) (x y : Nat) (v : Poly) :
    (f x ≠ .declaredGlobal → (s.step (.assign x v)).glob = s.glob ∧ (s.step (.assign x v)).read x = some v ∧
      ((s.step (.assign x v)).step .ret).read = (s.step .ret).read) ∧
    (f x = .declaredGlobal → (s.step (.assign x v)).glob x = some v ∧ (s.step (.assign x v)).read x = some v) ∧
    (y ≠ x → (s.step (.assign x v)).read y = s.read y) := by
  refine ⟨?_, ?_, ?_⟩
  · intro h
    simp only [Scope.step, hs]
    cases hx : f x with
    | declaredGlobal => exact absurd hx h
    | absent => refine ⟨trivial, by simp [Scope.read, upd], by funext z; simp [Scope.read]⟩
    | value w => refine ⟨trivial, by simp [Scope.read, upd], by funext z; simp [Scope.read]⟩
  · intro h
    simp [Scope.step, hs, h, Scope.read, upd]
  · intro h
    simp only [Scope.step, hs]
    cases hx : f x <;> simp [Scope.read, hs, upd, h]

/-- The rule is broken when memory runs out: the local cannot be created, and the assignment goes to the global of the same
name instead (an out-of-memory error is reported as well). -/
theorem C23_violated_oom : ∃ (s : Frames Poly Unit) (s' : Frames Poly Unit) (x : Nat) (v : Poly),
    s = ([.assign x 5, .call []] : List (ScopeOp Poly)).foldl (scopeStep ()) ⟨[], []⟩ ∧
    idStore s x v false true = (true, s') ∧ (framePop s').2.abs.glob x = some v ∧ (framePop s).2.abs.glob x ≠ some v :=
  ⟨_, _, 7, 6, rfl, rfl, by decide, by decide⟩

/-- A function with parameter 1, a global 2 declared, an own local 3, called from top level. -/
example : ∀ op ∈ ([.assign 2 5, .assign 3 6, .call [(1, 7)], .declareGlobal 2, .assign 2 8, .assign 3 9, .ret] :
    List (ScopeOp Poly)), OpOk op := by
  intro op h
  simp only [List.mem_cons, List.not_mem_nil, or_false] at h
  rcases h with rfl | rfl | rfl | rfl | rfl | rfl | rfl <;> simp [OpOk] <;> decide

end Snek
