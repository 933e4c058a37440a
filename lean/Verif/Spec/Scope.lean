/-!
# Scoping and argument binding, as the language description has them
-/
namespace Spec

/-- Status of a name in a function activation. -/
inductive LocalName (V : Type)
  | absent | declaredGlobal | value (v : V)

/-- Bindings visible to a running program: the globals, and one set of locals per active call, innermost first. -/
structure Scope (V : Type) where
  glob : Nat → Option V
  locs : List (Nat → LocalName V)

/-- Statements that touch variables. `call` enters a function with its parameters bound, `ret` leaves it. -/
inductive ScopeOp (V : Type)
  | assign (x : Nat) (v : V)
  | declareGlobal (x : Nat)
  | call (params : List (Nat × V))
  | ret

/-- Function update. -/
def upd {A : Type} (f : Nat → A) (x : Nat) (a : A) : Nat → A := fun y => if y = x then a else f y

/-- Locals of a function just entered: its parameters. -/
def paramLocals {V : Type} (params : List (Nat × V)) (x : Nat) : LocalName V :=
  match params.find? (fun p => p.1 = x) with
  | some p => .value p.2
  | none => .absent

/-- One statement: inside a function an assignment makes a local unless the name was declared global. -/
def Scope.step {V : Type} (s : Scope V) : ScopeOp V → Scope V
  | .assign x v =>
    match s.locs with
    | [] => { s with glob := upd s.glob x (some v) }
    | f :: fs =>
      match f x with
      | .declaredGlobal => { s with glob := upd s.glob x (some v) }
      | _ => { s with locs := upd f x (.value v) :: fs }
  | .declareGlobal x =>
    match s.locs with
    | [] => s
    | f :: fs => { s with locs := upd f x .declaredGlobal :: fs }
  | .call params =>
    { s with locs := paramLocals params :: s.locs }
  | .ret => { s with locs := s.locs.tail }

/-- Reading a name: the local if there is one, else the global. -/
def Scope.read {V : Type} (s : Scope V) (x : Nat) : Option V :=
  match s.locs with
  | [] => s.glob x
  | f :: _ =>
    match f x with
    | .value v => some v
    | _ => s.glob x

/-- A whole history. -/
def Scope.run {V : Type} (h : List (ScopeOp V)) (s : Scope V) : Scope V := h.foldl Scope.step s

/-- At the start nothing is defined and no call is active. -/
def Scope.empty {V : Type} : Scope V := ⟨fun _ => none, []⟩

/-- A call is acceptable: not too many positional arguments, named arguments name parameters, no parameter is given twice,
and every required parameter (the first `nreq`) is given. -/
structure GoodCall {V : Type} (formals : List Nat) (nreq : Nat) (pos : List V) (named : List (Nat × V)) : Prop where
  count : pos.length ≤ formals.length
  known : ∀ p ∈ named, p.1 ∈ formals
  once : (formals.take pos.length ++ named.map (·.1)).Nodup
  required : ∀ x ∈ formals.take nreq, x ∈ formals.take pos.length ++ named.map (·.1)

/-- The value parameter `x` gets: by position or by name. -/
def argOf {V : Type} (formals : List Nat) (pos : List V) (named : List (Nat × V)) (x : Nat) (v : V) : Prop :=
  (∃ i : Nat, formals[i]? = some x ∧ pos[i]? = some v) ∨ (x, v) ∈ named

end Spec
