import Verif.Spec.Lang
import Verif.Spec.Scope
import Verif.Spec.Number
/-!
# What a `for` loop does

`rangeElems` is the sequence `range(a, b, s)` denotes. `ForEach` says that a loop body is executed once for each element of a
list, in order, with the loop variable bound to it, until the list is exhausted (then the `else` part runs) or the body leaves
the loop. The machine keeps loop state in variables with reserved names (`Hidden`).
-/
namespace Snek.Lang
open Store (Val)
open Snek.Vm

/-- `range(a, b, s)`: `a, a + s, a + 2s, ...` as long as `b` is not reached. -/
def rangeElems (a b s : Int) : List Int :=
  let count := if 0 < s then (b - a + s - 1) / s else (a - b - s - 1) / -s
  (List.range count.toNat).map (fun i : Nat => a + i * s)

/-- Names reserved for loop state, at the top of the id range; no source name gets such an id. -/
def Hidden (W x : Nat) : Prop := 2 ^ (8 * W) - 516 ≤ x

/-- Value of the variable `x`. -/
def St.read {σ : Type} (s : St σ) (x : Nat) : Option Val := loadId s.fr x

/-- `t` is `s`, except for the variable `x` and loop state. -/
def OnlyVar {σ : Type} (W x : Nat) (s t : St σ) : Prop := ∀ y, y ≠ x → ¬ Hidden W y → t.read y = s.read y

/-- The body is run for each element. `Bind v s t`: `t` is `s` with the loop variable set to `v`; `body`, `fin`: possible results of
the body, and of what happens after the last element. -/
inductive ForEach {σ α : Type} (Bind : α → St σ → St σ → Prop) (body fin : St σ → R σ Flow → Prop) :
    List α → St σ → R σ Flow → Prop
  | done {s r} : fin s r → ForEach Bind body fin [] s r
  | next {v vs s s' t f r} : Bind v s s' → body s' (.ok f t) → f = .normal ∨ f = .cont → ForEach Bind body fin vs t r →
      ForEach Bind body fin (v :: vs) s r
  | brk {v vs s s' t} : Bind v s s' → body s' (.ok .brk t) → ForEach Bind body fin (v :: vs) s (.ok .normal t)
  | ret {v vs s s' t u} : Bind v s s' → body s' (.ok (.ret u) t) → ForEach Bind body fin (v :: vs) s (.ok (.ret u) t)
  | err {v vs s s' g w} : Bind v s s' → body s' (.err g w) → ForEach Bind body fin (v :: vs) s (.err g w)
  | over {v vs s s'} : Bind v s s' → body s' .over → ForEach Bind body fin (v :: vs) s .over

/-- The actuals of `range`: bounds and step. -/
def RangeArgs (a b t : Int) : List Val → Prop
  | [.num u] => Spec.Denotes u b ∧ a = 0 ∧ t = 1
  | [.num u, .num v] => Spec.Denotes u a ∧ Spec.Denotes v b ∧ t = 1
  | [.num u, .num v, .num w] => Spec.Denotes u a ∧ Spec.Denotes v b ∧ Spec.Denotes w t
  | _ => False

/-- No variable reads as the marker for "declared global" (true in every state a program reaches). -/
def CleanReads {σ : Type} (s : St σ) : Prop := ∀ y v, s.read y = some v → Val.isGlobal v = false

/-- The statement does not change the variable `x`. -/
def Leaves {σ : Type} (P : Prim σ) (defs : Nat → FunDef) (d fd : Nat) (c : Stmt) (x : Nat) : Prop :=
  ∀ m s f t, CleanReads s → execS P defs m d fd c s = .ok f t → t.read x = s.read x

/-- Bounds within which the arithmetic of the loop is exact. -/
def Small (x : Int) : Prop := -2 ^ 23 ≤ x ∧ x ≤ 2 ^ 23

/-- Binding the variable of a range loop. -/
def BindInt {σ : Type} (W x : Nat) (i : Int) (s s' : St σ) : Prop :=
  ∃ u, Spec.Denotes u i ∧ s'.read x = some (.num u) ∧ OnlyVar W x s s' ∧ s'.w = s.w

/-- The end of a range loop: the variable has moved on once more, then `else` runs. -/
def RangeEnd {σ : Type} (P : Prim σ) (defs : Nat → FunDef) (d fd x : Nat) (els : Stmt) (s : St σ) (r : R σ Flow) : Prop :=
  ∃ m s', OnlyVar P.W x s s' ∧ s'.w = s.w ∧ execS P defs m d fd els s' = r

/-- Binding the variable of a loop over a container: `Is e v w` says that the value `v` is the element `e`. -/
def BindElem {σ ε : Type} (Is : ε → Val → σ → Prop) (C : σ → Prop) (W x : Nat) (e : ε) (s s' : St σ) : Prop :=
  ∃ v, Is e v s'.w ∧ s'.read x = some v ∧ OnlyVar W x s s' ∧ C s'.w

/-- The end of a loop over a container: no variable changes. -/
def InEnd {σ : Type} (P : Prim σ) (defs : Nat → FunDef) (C : σ → Prop) (d fd : Nat) (els : Stmt) (s : St σ) (r : R σ Flow) : Prop :=
  ∃ m s', (∀ y, ¬ Hidden P.W y → s'.read y = s.read y) ∧ C s'.w ∧ execS P defs m d fd els s' = r

/-- Stepping through the container `arr` yields the elements `es`, as long as `C` holds of the world. -/
structure Elements {σ ε : Type} (P : Prim σ) (C : σ → Prop) (Is : ε → Val → σ → Prop) (arr : Val) (es : List ε) : Prop where
  elem : ∀ w (i : Nat) e, C w → es[i]? = some e →
    ∃ v w', P.iter arr (i : Int) w = (some v, w') ∧ v ≠ Val.none ∧ C w' ∧ Is e v (P.varAlloc w').2.2
  stop : ∀ w, C w → ∃ w', P.iter arr (es.length : Int) w = (some Val.none, w') ∧ C w'
  alloc : ∀ w, C w → C (P.varAlloc w).2.2

/-- Keys of a dictionary's storage. -/
def keysOf : List Val → List Val
  | k :: _ :: rest => k :: keysOf rest
  | _ => []

/-! ## Programs that leave loop state alone

`del` of a variable is excluded: it destroys other variables (C24). -/

mutual
/-- Nothing to require of expressions: no literal is the marker for "declared global". -/
def TameE : Expr → Prop
  | .num _ => True
  | .str _ => True
  | .name _ => True
  | .unary _ e => TameE e
  | .binary _ a b => TameE a ∧ TameE b
  | .and a b => TameE a ∧ TameE b
  | .or a b => TameE a ∧ TameE b
  | .cmp a _ b more => TameE a ∧ TameE b ∧ TameC more
  | .index a i => TameE a ∧ TameE i
  | .slice a b c t => TameE a ∧ TameO b ∧ TameO c ∧ TameO t
  | .call f args named => TameE f ∧ TameA args ∧ TameN named
  | .build _ es => TameA es
/-- Links of a comparison. -/
def TameC : Chain → Prop
  | .nil => True
  | .cons _ e rest => TameE e ∧ TameC rest
/-- Optional operands. -/
def TameO : OptE → Prop
  | .none => True
  | .some e => TameE e
/-- Operands. -/
def TameA : Exprs → Prop
  | .nil => True
  | .cons e es => TameE e ∧ TameA es
/-- Named actuals. -/
def TameN : Named → Prop
  | .nil => True
  | .cons _ e rest => TameE e ∧ TameN rest
end

mutual
/-- No reserved name is used, no variable is deleted, fewer than 256 loops are nested (`fd`: enclosing loops). -/
def TameS (W fd : Nat) : Stmt → Prop
  | .skip => True
  | .line _ => True
  | .seq a b => TameS W fd a ∧ TameS W fd b
  | .expr e => TameE e
  | .assign _ x e => ¬ Hidden W x ∧ TameE e
  | .assignIdx _ a i e => TameE a ∧ TameE i ∧ TameE e
  | .ret e => TameO e
  | .brk => True
  | .cont => True
  | .global x => ¬ Hidden W x
  | .del _ => False
  | .delIdx a i => TameE a ∧ TameE i
  | .assert e => TameE e
  | .ifs c t els => TameE c ∧ TameS W fd t ∧ TameElse W fd els
  | .whil c body els => TameE c ∧ TameS W fd body ∧ TameS W fd els
  | .forRange x args body els => ¬ Hidden W x ∧ fd < 256 ∧ TameA args ∧ TameS W (fd + 1) body ∧ TameS W fd els
  | .forIn x e body els => ¬ Hidden W x ∧ fd < 256 ∧ TameE e ∧ TameS W (fd + 1) body ∧ TameS W fd els
/-- `elif` and `else`. -/
def TameElse (W fd : Nat) : Else → Prop
  | .none => True
  | .els s => TameS W fd s
  | .elif _ c t rest => TameE c ∧ TameS W fd t ∧ TameElse W fd rest
end

/-- Parameter defaults. -/
def TameD (W : Nat) : Named → Prop
  | .nil => True
  | .cons x e rest => ¬ Hidden W x ∧ TameE e ∧ TameD W rest

/-- Memory does not run out for variables, and no operation returns the marker for "declared global". -/
structure TamePrim {σ : Type} (P : Prim σ) : Prop where
  width : 2 ≤ P.W
  alloc : ∀ w, (P.varAlloc w).1 = true ∧ (P.varAlloc w).2.1 = true
  rel : ∀ r a b w v, (P.rel r a b w).1 = some v → Val.isGlobal v = false
  index : ∀ a b w v, (P.index a b w).1 = some v → Val.isGlobal v = false
  arith : ∀ op i a b w, Val.isGlobal (P.arith op i a b w).1 = false
  unary : ∀ u a w v, (P.unary u a w).1 = some v → Val.isGlobal v = false
  slice : ∀ a b c t w v, (P.slice a b c t w).1 = some v → Val.isGlobal v = false
  build : ∀ k l w v, (P.build k l w).1 = some v → Val.isGlobal v = false
  storeIdx : ∀ op a i x w v, (P.storeIdx op a i x w).1 = some v → Val.isGlobal v = false
  builtinVal : ∀ x, x < P.builtinMax → Val.isGlobal (P.builtinVal x) = false
  callBuiltin : ∀ f a b w v, (P.callBuiltin f a b w).1 = some v → Val.isGlobal v = false
  iter : ∀ a i w v, (P.iter a i w).1 = some v → Val.isGlobal v = false

/-- All functions of a program leave loop state alone. -/
def TameDefs (W : Nat) (defs : Nat → FunDef) : Prop := ∀ k, TameD W (defs k).defaults ∧ TameS W 0 (defs k).body

/-- No variable holds the marker for "declared global", except names declared global in the running function, which are no
reserved names. (True at the start; it stays so.) -/
def TameSt {σ : Type} (W : Nat) (s : St σ) : Prop :=
  (∀ v ∈ s.fr.globals, Val.isGlobal v.value = false) ∧ (∀ f ∈ s.fr.frames, ∀ v ∈ f.vars, Hidden W v.id → Val.isGlobal v.value = false)

end Snek.Lang
