import Verif.Model.Ptr
import Verif.Model.HeapObj
import Verif.Spec.Gc
/-!
# The pool of the collector and the pool of the container operations

`Model/Gc` with `Model/HeapObj` describes the pool as the collector sees it: objects of a size with references. `Model/Ptr` describes it as the container
operations see it: strings, list headers and their storage. `Pictures p s` says that they are the same memory.
-/
namespace Snek.Ptr

/-- A value as the collector sees it; `word` gives the bits of values that are not references. -/
def enc (word : Store.Val → Nat) : Store.Val → Gc.Val
  | .str a => .ref .string a
  | .list a => .ref .list a
  | v => .imm (word v)

/-- The strings, lists and storage that `p` reaches are those in the pool `s`, and its roots are roots of `s` (which may have more: names, frames,
the code that is being compiled). -/
structure Pictures (word : Store.Val → Nat) {w : Nat} (p : P) (s : Gc.St (Gc.PObj w)) : Prop where
  roots : ∀ v a, v ∈ p.roots → addr v = some a → a ∈ s.roots
  str : ∀ a b, p.Reach a → p.blk a = some (.str b) → s.heap a = some (Gc.Obj.str (b.map UInt8.toNat))
  head : ∀ a h, p.Reach a → p.hd a = some h → s.heap a = some (Gc.Obj.list h.type h.size h.alloc h.data)
  words : ∀ a h l, p.Reach a → p.hd a = some h → h.alloc ≠ 0 → p.wds h = some l →
    s.heap h.data = some (Gc.Obj.store h.alloc ((l.take h.size).map (enc word)))

end Snek.Ptr
