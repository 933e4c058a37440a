import Verif.Model.Ptr
import Verif.Spec.Store
/-!
# The same operations where nothing moves

A sequence of operations of `Ptr.Op` on objects with numbers (`Model/Store`) instead of addresses: no collector, no saved pointers. What
can be seen of a value is defined for both.
-/
namespace Snek.Ptr
open Store (Val S Env Fits arithFits sliceFits dictFits resized)

/-- Stack, accumulator, other roots, and the objects; `cap` is the size of the stack. -/
structure V where
  stk : List Val
  acc : Val
  ext : List Val
  cap : Nat
  s : S

/-- A result to the accumulator, with the remaining stack. -/
def V.res (v : V) (stk : List Val) : Val × S → V | (x, s) => { v with stk := stk, acc := x, s := s }

/-- Pop an optional operand. -/
def popIf (b : Bool) (l : List Val) : Option (Option Val × List Val) :=
  match b, l with
  | false, l => some (none, l)
  | true, x :: l => some (some x, l)
  | true, [] => none

/-- One operation. -/
def vstep (E : Env) (op : Op) (v : V) : Option V :=
  match op with
  | .push => if v.stk.length = v.cap then some { v with s := v.s.fail } else some { v with stk := v.acc :: v.stk }
  | .const x => some { v with acc := x }
  | .load k => do return { v with acc := ← v.ext[k]? }
  | .save k => if k < v.ext.length then some { v with ext := v.ext.set k v.acc } else none
  | .lit b => (Store.newStr E v.s b).map (v.res v.stk)
  | .arith op => match v.stk with
    | a :: l => (Store.arith E op false a v.acc v.s).map (v.res l)
    | _ => none
  | .index => match v.stk with
    | a :: l => (Store.index E v.s a v.acc).map (v.res l)
    | _ => none
  | .isIn pos => match v.stk with
    | a :: l => (Store.isIn E pos a v.acc v.s).map (v.res l)
    | _ => none
  | .slice start stop stride => do
    let (t, l) ← popIf stride v.stk
    let (q, l) ← popIf stop l
    let (s, l) ← popIf start l
    match l with
    | x :: l => (Store.slice E x s q t v.s).map (v.res l)
    | _ => none
  | .build t n => if n ≤ v.stk.length then (Store.imm E v.s t (v.stk.take n).reverse).map (v.res (v.stk.drop n)) else none
  | .store => match v.stk with
    | i :: l :: stk => (Store.storeElem E l i v.acc v.s).map fun s => { v with stk := stk, s := s }
    | _ => none
  | .aug op => match v.stk with
    | i :: l :: stk => do
      match ← Store.elemRef E v.s l i with
      | (none, s) => return { v with stk := stk, s := s }
      | (some (j, k), s) =>
        let o ← s.lst j
        let old ← o.data[k]?
        let (r, s) ← Store.arith E op true old v.acc s
        return { v with stk := stk, acc := r, s := ← Store.storeElem E l i r s }
    | _ => none
  | .del => match v.stk with
    | l :: stk => (Store.delElem E l v.acc v.s).map fun s => { v with stk := stk, s := s }
    | _ => none

/-- Operations until one raises an error. -/
def vrun (E : Env) : List Op → V → Option V
  | [], v => some v
  | op :: ops, v => if v.s.abort then some v else (vstep E op v).bind (vrun E ops)

/-- Empty memory and `k` variables without values; `mem` answers requests for memory. -/
def V.start (cap k : Nat) (mem : Nat → Nat → Bool) : V := ⟨[], .none, List.replicate k .none, cap, S.start mem⟩

/-- The same at addresses. -/
def P.start (cap k : Nat) (mem : Nat → Nat → Bool) : P :=
  ⟨fun _ => none, [], [], .none, List.replicate k .none, none, mem, 0, false, cap, 0⟩

/-- What can be seen of a value down to some depth. -/
inductive Look
  | deeper
  | atom (v : Val)
  | text (b : List UInt8)
  | group (t : LType) (l : List Look)
  | bad
  deriving Repr

/-- Looking at a value by object numbers. -/
def vlook (s : S) : Nat → Val → Look
  | 0, _ => .deeper
  | n + 1, .list i => match s.lst i with
    | some o => .group o.type ((o.data.take o.size).map (vlook s n))
    | none => .bad
  | _ + 1, .str i => match s.bytes i with
    | some b => .text b
    | none => .bad
  | _ + 1, v => .atom v

/-- Looking at a value by addresses. -/
def plook (p : P) : Nat → Val → Look
  | 0, _ => .deeper
  | n + 1, .list a => match p.hd a with
    | some h => match p.wds h with
      | some l => .group h.type ((l.take h.size).map (plook p n))
      | none => .bad
    | none => .bad
  | _ + 1, .str a => match p.chars a with
    | some b => .text b
    | none => .bad
  | _ + 1, v => .atom v

/-- What can be seen of the accumulator, the stack and the variables, and whether an error was raised. -/
def V.view (v : V) (n : Nat) : Bool × Look × List Look × List Look :=
  (v.s.abort, vlook v.s n v.acc, v.stk.map (vlook v.s n), v.ext.map (vlook v.s n))

/-- The same at addresses. -/
def P.view (p : P) (n : Nat) : Bool × Look × List Look × List Look :=
  (p.abort, plook p n p.acc, p.stack.map (plook p n), p.ext.map (plook p n))

/-- Operands that are saved while the result is made: no string is repeated or used as a format. -/
def Rooted : BinOp → Val → Val → Prop
  | .times, .str _, .num _ => False
  | .times, .num _, .str _ => False
  | .mod, .str _, _ => False
  | _, _, _ => True

/-- The element `l[i]` is there: referring to it does not insert a key. -/
def Present (E : Env) (s : S) (l i : Val) : Prop :=
  ∀ j k s', l = .list j → Store.ref E s j i true = some (some k, s') → resized s s' j = false

/-- Three free places on the stack. -/
def V.Room (v : V) : Prop := v.stk.length + 3 ≤ v.cap

instance (v : V) : Decidable v.Room := inferInstanceAs (Decidable (_ ≤ _))

/-- Operations whose pointers are all saved while memory is allocated: there is room on the stack, sizes are within the range of offsets,
no string is repeated or formatted, and keys are not inserted by augmented assignments and `del`. -/
def Safe (E : Env) (v : V) : Op → Prop
  | .push => True
  | .const x => addr x = none
  | .load k => k < v.ext.length
  | .save k => k < v.ext.length
  | .lit b => b.length + 1 < 2 ^ E.A.offBits
  | .arith op => ∃ a l, v.stk = a :: l ∧ v.Room ∧ arithFits E op a v.acc v.s ∧ Rooted op a v.acc
  | .index => ∃ a l, v.stk = a :: l ∧ v.Room
  | .isIn _ => ∃ a l, v.stk = a :: l
  | .slice start stop stride => ∃ t q s x l1 l2 l3 l4, popIf stride v.stk = some (t, l1) ∧ popIf stop l1 = some (q, l2) ∧
      popIf start l2 = some (s, l3) ∧ l3 = x :: l4 ∧ v.Room ∧ sliceFits E x s q t v.s
  | .build t n => n ≤ v.stk.length ∧ v.Room ∧ Fits E n ∧ (t = .dict → n % 2 = 0)
  | .store => ∃ i l stk, v.stk = i :: l :: stk ∧ v.Room ∧ dictFits E l 2 v.s
  | .aug op => ∃ i l stk, v.stk = i :: l :: stk ∧ v.Room ∧ (Store.Op.aug op l i v.acc).fits E v.s ∧ Present E v.s l i ∧
      ∀ j k s' o old, Store.elemRef E v.s l i = some (some (j, k), s') → s'.lst j = some o → o.data[k]? = some old → Rooted op old v.acc
  | .del => ∃ l stk, v.stk = l :: stk ∧ v.Room ∧ dictFits E l 2 v.s ∧ Present E v.s l v.acc

/-- Each operation of a run is safe where it is performed. -/
def AllSafe (E : Env) : List Op → V → Prop
  | [], _ => True
  | op :: ops, v => v.s.abort = true ∨ (Safe E v op ∧ ∀ v', vstep E op v = some v' → AllSafe E ops v')

end Snek.Ptr
