/-!
# What a dictionary is

A history of operations, most recent first, and what it says is stored. Independent of the model.
-/
namespace Spec

/-- Operations on one dictionary. A literal `{k1: v1, ...}` is the stores of its pairs on an empty dictionary. -/
inductive DictOp (α : Type)
  | store (k v : α)
  | del (k : α)

/-- Key the operation is about. -/
def DictOp.key {α : Type} : DictOp α → α
  | .store k _ => k
  | .del k => k

/-- `Holds eq h k v`: according to the history `h` (most recent first) the value under keys equal to `k` is `v`. -/
inductive Holds {α : Type} (eq : α → α → Prop) : List (DictOp α) → α → α → Prop
  | here (k k' v h) : eq k k' → Holds eq (.store k v :: h) k' v
  | store (k k' v v' h) : ¬ eq k k' → Holds eq h k' v' → Holds eq (.store k v :: h) k' v'
  | del (k k' v' h) : ¬ eq k k' → Holds eq h k' v' → Holds eq (.del k :: h) k' v'

/-- The entries of a flat key, value, key, value ... array. -/
def entries {α : Type} : List α → List (α × α)
  | k :: v :: d => (k, v) :: entries d
  | _ => []

end Spec
