import Verif.Model.Machine
import Verif.Proofs.HeapCmp
/-!
# Values of the running machine as trees
-/
namespace Snek.Machine
open Store

mutual
theorem treeOf_tree {objs : List Obj} : ∀ (t : Tree) {v : Val} {P : List Nat} {n : Nat}, Unfolds objs t v → Path objs (sizeOf t) P →
    objs.length ≤ n + P.length → treeOf objs (n + 1) v = some t
  | .num u, v, P, n, h, hp, hn => by simp only [Unfolds] at h; subst h; simp [treeOf]
  | .func u, v, P, n, h, hp, hn => by simp only [Unfolds] at h; subst h; simp [treeOf]
  | .builtin u, v, P, n, h, hp, hn => by simp only [Unfolds] at h; subst h; simp [treeOf]
  | .str u, v, P, n, h, hp, hn => by simp only [Unfolds] at h; obtain ⟨i, rfl, h⟩ := h; simp [treeOf, h]
  | .list ty l, v, P, n, h, hp, hn => by
    have hu := h
    simp only [Unfolds] at h
    obtain ⟨i, o, rfl, h1, h2, h3⟩ := h
    have hi : i < objs.length := (List.getElem?_eq_some_iff.1 h1).1
    have hp2 : Path objs (sizeOf l) (i :: P) := hp.cons hu hi (by simp only [Tree.list.sizeOf_spec]; omega)
    have hl := hp2.len
    rw [List.length_cons] at hl
    obtain ⟨m, rfl⟩ : ∃ m, n = m + 1 := ⟨n - 1, by omega⟩
    have := treeOf_list l h3 hp2 (n := m) (by rw [List.length_cons]; omega)
    rw [treeOf]
    simp only [h1, this, Option.map_some, h2]
theorem treeOf_list {objs : List Obj} : ∀ (l : List Tree) {a : List Val} {P : List Nat} {n : Nat}, UnfoldsL objs l a →
    Path objs (sizeOf l) P → objs.length ≤ n + P.length → a.mapM (treeOf objs (n + 1)) = some l
  | [], a, P, n, h, hp, hn => by
    cases a with
    | nil => rfl
    | cons x y => simp [UnfoldsL] at h
  | t :: l, a, P, n, h, hp, hn => by
    cases a with
    | nil => simp [UnfoldsL] at h
    | cons x y =>
      simp only [UnfoldsL] at h
      have h1 := treeOf_tree t (n := n) h.1 (hp.mono (by simp only [List.cons.sizeOf_spec]; omega)) hn
      have h2 := treeOf_list l (n := n) h.2 (hp.mono (by simp only [List.cons.sizeOf_spec]; omega)) hn
      simp only [List.mapM_cons, h1, h2, Option.bind_eq_bind, Option.bind_some, Option.pure_def]
end

/-- A value that unfolds to a tree is read as that tree. -/
theorem tree_unfolds {objs : List Obj} {t : Tree} {v : Val} (h : Unfolds objs t v) : tree objs v = some t :=
  treeOf_tree t h (.nil _) (by simp)

theorem tree_unfoldsL {objs : List Obj} {l : List Tree} {vs : List Val} (h : UnfoldsL objs l vs) : vs.mapM (tree objs) = some l :=
  treeOf_list l h (.nil _) (by simp)

end Snek.Machine
