import Verif.Spec.Store
import Verif.Spec.Dict
/-!
# A dictionary in the memory of a running program

The history of one dictionary object: stores and deletions through the operations of the interpreter, and between them whatever else the
program does that does not assign to this dictionary.
-/
namespace Snek.Store
open Spec

/-- `History E i τ h s s'`: from `s` the program came to `s'`, and the assignments `d[k] = v` and `del d[k]` to the dictionary `i` that it made without
error are `h`, the last one first. `τ` tells what the keys look like. Between them any other object may be changed or added, as long as strings and
tuples stay what they are (C11). -/
inductive History (E : Env) (i : Nat) (τ : Val → Tree) : List (DictOp Val) → S → S → Prop
  | start (s) : History E i τ [] s s
  | store (h s s1 s2 k v) : History E i τ h s s1 → Unfolds s1.objs (τ k) k → storeElem E (.list i) k v s1 = some s2 → s2.abort = false →
      History E i τ (.store k v :: h) s s2
  | del (h s s1 s2 k) : History E i τ h s s1 → Unfolds s1.objs (τ k) k → delElem E (.list i) k s1 = some s2 → s2.abort = false →
      History E i τ (.del k :: h) s s2
  | other (h s s1 s2) : History E i τ h s s1 → Ok s2 → s2.elems i = s1.elems i →
      (∀ (j : Nat) x, s1.objs[j]? = some x → Frozen x → s2.objs[j]? = some x) → History E i τ h s s2

end Snek.Store
