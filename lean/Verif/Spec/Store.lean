import Verif.Model.HeapCmp
import Verif.Spec.Order
/-!
# Containers as users see them
-/
namespace Snek.Store

/-- Memory when the interpreter starts: nothing in it. `mem` are the answers the allocator will give. -/
def S.start (mem : Nat → Nat → Bool) : S := ⟨[], Option.none, mem, 0, false⟩

/-- The storage covers the elements and is as large as the header says. -/
def LOk (o : LObj) : Prop := o.size ≤ o.alloc ∧ o.data.length = o.alloc ∧ (o.type = .dict → o.size % 2 = 0)

/-- All list objects are well formed, and the shared empty tuple is one. -/
def Ok (s : S) : Prop :=
  (∀ i o, s.lst i = some o → LOk o) ∧ (∀ i, s.empty = some i → ∃ o, s.lst i = some o ∧ o.type = .tuple ∧ o.size = 0 ∧ o.data = [])

/-- The memory for a list of `n` elements is within the range of offsets. -/
def Fits (E : Env) (n : Nat) : Prop := (n + n / 8 + 6) * 4 < 2 ^ E.A.offBits

/-- Type and elements of list object `i`. -/
def S.elems (s : S) (i : Nat) : Option (LType × List Val) := (s.lst i).map fun o => (o.type, o.data.take o.size)

/-- The value refers to an object of the right kind. -/
def VOk (s : S) : Val → Prop
  | .list i => ∃ o, s.lst i = some o
  | .str i => ∃ b, s.bytes i = some b
  | _ => True

/-- Object that no operation may change. -/
def Frozen : Obj → Prop
  | .str _ => True
  | .list o => o.type = .tuple

/-- The shared empty tuple is empty. -/
def EmptyOk (s : S) : Prop := ∀ i, s.empty = some i → ∃ o, s.lst i = some o ∧ o.type = .tuple ∧ o.data = []

mutual
/-- The tree is what the value looks like when all references are followed. -/
def Unfolds (objs : List Obj) : Tree → Val → Prop
  | .num u, v => v = .num u
  | .str b, v => ∃ i, v = .str i ∧ objs[i]? = some (.str b)
  | .list t l, v => ∃ i o, v = .list i ∧ objs[i]? = some (.list o) ∧ o.type = t ∧ UnfoldsL objs l (o.data.take o.size)
  | .func n, v => v = .func n
  | .builtin n, v => v = .builtin n
def UnfoldsL (objs : List Obj) : List Tree → List Val → Prop
  | [], [] => True
  | t :: l, v :: l' => Unfolds objs t v ∧ UnfoldsL objs l l'
  | _, _ => False
end

/-- The operands of an operation are proper values. -/
def Op.vok (s : S) : Op → Prop
  | .arith _ _ a b => VOk s a ∧ VOk s b
  | .index a b => VOk s a ∧ VOk s b
  | .isIn _ a b => VOk s a ∧ VOk s b
  | .slice v _ _ _ => VOk s v
  | .build _ l => ∀ v ∈ l, VOk s v
  | .store l i v => VOk s l ∧ VOk s i ∧ VOk s v
  | .aug _ l i v => VOk s l ∧ VOk s i ∧ VOk s v
  | .del l i => VOk s l ∧ VOk s i

/-- A container times a number: the result is within the range of offsets. -/
def timesFits (E : Env) (a b : Val) (s : S) : Prop :=
  match a, b with
  | .list i, .num u => ∀ o, s.lst i = some o → Fits E (o.size * (soff E (.num u)).1.toNat)
  | .str i, .num u => ∀ b, s.bytes i = some b → (soff E (.num u)).1.toNat * b.length + 1 < 2 ^ E.A.offBits
  | _, _ => True

/-- The result of a binary operator is within the range of offsets. -/
def arithFits (E : Env) (op : BinOp) (a b : Val) (s : S) : Prop :=
  match op with
  | .plus =>
    match a, b with
    | .list i, .list j => ∀ x y, s.lst i = some x → s.lst j = some y → Fits E (x.size + y.size)
    | .str i, .str j => ∀ x y, s.bytes i = some x → s.bytes j = some y → x.length + y.length + 1 < 2 ^ E.A.offBits
    | _, _ => True
  | .times => timesFits E a b s ∧ timesFits E b a s
  | .mod =>
    match a with
    | .str i => ∀ x r, s.bytes i = some x → E.fmt s.objs x b = some (some r) → r.length + 1 < 2 ^ E.A.offBits
    | _ => True
  | _ => True

/-- The operands of a slice are within the range in which its arithmetic does not overflow (C04). -/
def sliceFits (E : Env) (v : Val) (p q t : Option Val) (s : S) : Prop :=
  ∀ n, len s v = some n →
    (∀ i, v = .list i → Fits E n) ∧
    p.map (fun x => (soff E x).1) ≠ some E.A.soffNone ∧ q.map (fun x => (soff E x).1) ≠ some E.A.soffNone ∧
    (n : Int) + ((p.map (fun x => (soff E x).1)).getD 0).natAbs + ((q.map (fun x => (soff E x).1)).getD 0).natAbs + 4 < 2 ^ (E.A.offBits - 1) ∧
    (n : Int) + ((p.map (fun x => (soff E x).1)).getD 0).natAbs + ((q.map (fun x => (soff E x).1)).getD 0).natAbs +
      ((t.map (fun x => (soff E x).1)).getD 1).natAbs + 4 < 2 ^ (E.A.intBits - 1)

/-- There is an offset for each element after adding `n` to a dictionary. -/
def dictFits (E : Env) (v : Val) (n : Nat) (s : S) : Prop :=
  match v with
  | .list i => ∀ o, s.lst i = some o → o.type = .dict → Fits E (o.size + n)
  | _ => True

/-- What an operation builds is within the range of offsets. -/
def Op.fits (E : Env) (s : S) : Op → Prop
  | .arith op _ a b => arithFits E op a b s
  | .index _ _ => True
  | .isIn _ _ _ => True
  | .slice v p q t => sliceFits E v p q t s
  | .build t l => Fits E l.length ∧ (t = .dict → l.length % 2 = 0)
  | .store l _ _ => dictFits E l 2 s
  | .aug op l i v => dictFits E l 4 s ∧
      ∀ n k s' o old, elemRef E s l i = some (some (n, k), s') → s'.lst n = some o → o.data[k]? = some old → arithFits E op old v s'
  | .del l _ => dictFits E l 2 s

/-- The operands of each operation of a run are values that exist, and what is built is within the range of offsets. -/
def Allowed (E : Env) : List Op → S → Prop
  | [], _ => True
  | op :: ops, s => op.vok s ∧ op.fits E s ∧ ∀ s', step E op s = some s' → Allowed E ops s'

/-- Element `k` of a sequence, counting from the end when negative. -/
def elemAt {α : Type} (l : List α) (k : Int) : Option α :=
  if 0 ≤ k then l[k.toNat]? else if 0 ≤ l.length + k then l[(l.length + k).toNat]? else Option.none

/-- The sequence with element `k` replaced. -/
def setAt {α : Type} (l : List α) (k : Int) (v : α) : List α := l.set (if 0 ≤ k then k else l.length + k).toNat v

/-- The sequence without element `k`. -/
def delAt {α : Type} (l : List α) (k : Int) : List α := l.eraseIdx (if 0 ≤ k then k else l.length + k).toNat

/-- The allocator refuses a request it is asked from now on. -/
def S.Short (s : S) : Prop := ∃ k n, s.clock ≤ k ∧ s.mem k n = false

end Snek.Store
