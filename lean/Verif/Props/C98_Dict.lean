import Verif.Props.C98
import Verif.Props.C06_Heap
/-!
# C98, continued: dictionaries in the running machine

What the operations of the machine do with a dictionary object, for all histories of the object (`Store.History`): displays, reading, assignment, deletion,
`in`. `G` are the keys used: values of kinds for which the order of the code is an order (no two of them clash as in `PrefixClash`), as in
`C06_map_partial`.
-/
namespace Snek.Machine
open Store (Val S Obj Unfolds Frozen History Fits)
open Vm (Prim)
open Spec

variable {κ : Type} {C : Cfg κ} {sig : Nat → FuncSig} {code : Nat → List UInt8}

theorem history_reset {E : Store.Env} {i : Nat} {τ : Val → Tree} {h : List (DictOp Val)} {s0 s : S} (hh : History E i τ h s0 s) (hok : Store.Ok s) :
    History E i τ h s0 { s with abort := false } :=
  .other _ _ _ _ hh (ok_reset2 hok) rfl fun _ _ hx _ => hx

section
variable {G : Tree → Prop} (hG : ∀ t, G t → Stored t ∧ t.mutable = false) (hc : ∀ a b, G a → G b → ¬ PrefixClash a b)
variable {i : Nat} {τ : Val → Tree} {h : List (DictOp Val)} {s0 : S} {w : World κ}
include hG hc

/-- `{k: v, ...}`: a new dictionary whose history is the assignments of the pairs in the order written. -/
theorem C98_dict_display_partial (hs : Store.Ok w.st) (l : List Val) (heven : l.length % 2 = 0) (hf : Fits (env C) l.length)
    (hk : ∀ q ∈ entries l, G (τ q.1) ∧ Unfolds w.st.objs (τ q.1) q.1) :
    ∃ r w', (prim C sig code).build .dict l w = (r, w') ∧ (∀ j, j < w.st.objs.length → w'.st.objs[j]? = w.st.objs[j]?) ∧
      w'.out = w.out ∧ w'.dev = w.dev ∧ w'.wild = w.wild ∧
      ((r = none ∧ w.st.Short) ∨
       (r = some (.list w.st.objs.length) ∧ ∃ s1, Store.Ok s1 ∧ s1.elems w.st.objs.length = some (.dict, []) ∧
        History (env C) w.st.objs.length τ ((entries l).map fun q => .store q.1 q.2).reverse s1 w'.st)) := by
  obtain ⟨r, s', e1, e2, e3⟩ := Store.C06_heap_display_partial (A := C.A) (powf := C.powf) (fmt := fmtOf C) (any := C.any) (anyOff := C.anyOff) (τ := τ)
    hG hc { w.st with abort := false } (ok_reset2 hs) rfl l heven hf hk
  have hr := exec_some (w := w) (o := .build .dict l) (f := fun s => Store.imm (env C) s .dict l) (r := r) (s' := s') e1
  refine ⟨_, _, hr, e2, rfl, rfl, rfl, ?_⟩
  rcases e3 with ⟨a1, a2⟩ | ⟨a1, a2, s1, a3⟩
  · rw [a1]; exact .inl ⟨rfl, a2⟩
  · rw [a1, a2]; exact .inr ⟨rfl, s1, a3⟩

/-- `d[k]` gives the value the history left under a key equal to `k`; if there is none, an error. `in` and `not in` tell whether there is one.
Nothing changes. -/
theorem C98_dict_get_partial (hh : History (env C) i τ h s0 w.st) (hs : Store.Ok s0) (he : s0.elems i = some (.dict, []))
    (hk : ∀ op ∈ h, G (τ op.key)) (hf : Fits (env C) (2 * h.length)) (k : Val) (hg : G (τ k)) (hu : Unfolds w.st.objs (τ k) k) :
    (∀ v, Holds (fun a b => Same (τ a) (τ b)) h k v →
      Gives w v ((prim C sig code).index (.list i) k w) ∧ Gives w (Store.ofBool true) ((prim C sig code).rel .isIn k (.list i) w) ∧
      Gives w (Store.ofBool false) ((prim C sig code).rel .notIn k (.list i) w)) ∧
    ((¬ ∃ v, Holds (fun a b => Same (τ a) (τ b)) h k v) →
      Refused w ((prim C sig code).index (.list i) k w) ∧ Gives w (Store.ofBool false) ((prim C sig code).rel .isIn k (.list i) w) ∧
      Gives w (Store.ofBool true) ((prim C sig code).rel .notIn k (.list i) w)) := by
  obtain ⟨ps, H⟩ := hh.holding (A := C.A) (powf := C.powf) (fmt := fmtOf C) (any := C.any) (anyOff := C.anyOff) hG hc hs he hk hf
  obtain ⟨h1, h2⟩ := (Store.C06_heap_partial (A := C.A) (powf := C.powf) (fmt := fmtOf C) (any := C.any) (anyOff := C.anyOff) hG hc
    (history_reset hh H.ok) hs he hk hf).1 k hg hu
  refine ⟨fun v hv => ?_, fun hv => ?_⟩
  · obtain ⟨e1, e2⟩ := h1 v hv
    exact ⟨gives_exec e1 rfl rfl, gives_exec (e2 true) rfl rfl, gives_exec (e2 false) rfl rfl⟩
  · obtain ⟨e1, e2⟩ := h2 hv
    exact ⟨refused_exec e1 rfl rfl, gives_exec (e2 true) rfl rfl, gives_exec (e2 false) rfl rfl⟩

/-- `d[k] = v`: the assignment is added to the history, no other object changes, and `d[k]` is then `v`; or the allocator refused memory, an error, and no
object changed. -/
theorem C98_dict_store_partial (hh : History (env C) i τ h s0 w.st) (hs : Store.Ok s0) (he : s0.elems i = some (.dict, []))
    (hk : ∀ op ∈ h, G (τ op.key)) (hf : Fits (env C) (2 * h.length + 2)) (k v : Val) (hg : G (τ k)) (hu : Unfolds w.st.objs (τ k) k) :
    ∃ r w', (prim C sig code).storeIdx .plain (.list i) k v w = (r, w') ∧ w'.out = w.out ∧ w'.dev = w.dev ∧ w'.wild = w.wild ∧
      (∀ j, j ≠ i → w'.st.objs[j]? = w.st.objs[j]?) ∧
      ((r = none ∧ w'.st.objs = w.st.objs ∧ w.st.Short) ∨
       (r = some v ∧ History (env C) i τ (.store k v :: h) s0 w'.st ∧ Gives w' v ((prim C sig code).index (.list i) k w'))) := by
  obtain ⟨ps, H⟩ := hh.holding (A := C.A) (powf := C.powf) (fmt := fmtOf C) (any := C.any) (anyOff := C.anyOff) hG hc hs he hk (hf.mono (by omega))
  have hh' := history_reset hh H.ok
  obtain ⟨s', e1, -, e2, e3⟩ := Store.C06_heap_store_partial (A := C.A) (powf := C.powf) (fmt := fmtOf C) (any := C.any) (anyOff := C.anyOff) hG hc
    hh' hs he hk hf k v hg hu
  have hr := exec_some (w := w) (o := .store (.list i) k v) (f := fun s => (Store.storeElem (env C) (.list i) k v s).map fun s => (v, s))
    (r := v) (s' := s') (by simp only [show Store.storeElem (env C) (.list i) k v { w.st with abort := false } = some s' from e1, Option.map_some])
  refine ⟨_, _, hr, rfl, rfl, rfl, e2, ?_⟩
  rcases e3 with ⟨a1, a2, a3⟩ | ⟨a1, a2⟩
  · rw [a1]; exact .inl ⟨rfl, a2, a3⟩
  · have a1 : s'.abort = false := a1
    rw [a1]
    refine .inr ⟨rfl, .store _ _ _ _ _ _ hh' hu e1 a1, gives_exec (s' := s') ?_ a1 rfl⟩
    show Store.index (env C) { s' with abort := false } (.list i) k = _
    rw [show ({ s' with abort := false } : S) = s' by rw [← a1]]
    exact a2

/-- `del d[k]`: the deletion is added to the history and no other object changes; or the allocator refused memory, an error, and no object changed. -/
theorem C98_dict_delete_partial (hh : History (env C) i τ h s0 w.st) (hs : Store.Ok s0) (he : s0.elems i = some (.dict, []))
    (hk : ∀ op ∈ h, G (τ op.key)) (hf : Fits (env C) (2 * h.length + 2)) (k : Val) (hg : G (τ k)) (hu : Unfolds w.st.objs (τ k) k) :
    ∃ ok w', (prim C sig code).delIdx (.list i) k w = (ok, w') ∧ w'.out = w.out ∧ w'.dev = w.dev ∧ w'.wild = w.wild ∧
      (∀ j, j ≠ i → w'.st.objs[j]? = w.st.objs[j]?) ∧
      ((ok = false ∧ w'.st.objs = w.st.objs ∧ w.st.Short) ∨ (ok = true ∧ History (env C) i τ (.del k :: h) s0 w'.st)) := by
  obtain ⟨ps, H⟩ := hh.holding (A := C.A) (powf := C.powf) (fmt := fmtOf C) (any := C.any) (anyOff := C.anyOff) hG hc hs he hk (hf.mono (by omega))
  have hh' := history_reset hh H.ok
  obtain ⟨_, s', -, e1, -, e2, e3⟩ := Store.C08_heap_partial (A := C.A) (powf := C.powf) (fmt := fmtOf C) (any := C.any) (anyOff := C.anyOff) hG hc
    hh' hs he hk hf k hg hu
  have hr := exec_some (w := w) (o := .del (.list i) k) (f := fun s => (Store.delElem (env C) (.list i) k s).map fun s => (Val.none, s))
    (r := Val.none) (s' := s') (by simp only [show Store.delElem (env C) (.list i) k { w.st with abort := false } = some s' from e1, Option.map_some])
  refine ⟨!s'.abort, { (w.note (.op (.del (.list i) k) { w.st with abort := false })) with st := s' }, ?_, rfl, rfl, rfl, e2, ?_⟩
  · show delIdx C _ _ _ = _
    unfold delIdx
    rw [hr]
    cases s'.abort <;> rfl
  · rcases e3 with ⟨a1, a2, a3⟩ | ⟨a1, -⟩
    · rw [a1]; exact .inl ⟨rfl, a2, a3⟩
    · have a1 : s'.abort = false := a1
      rw [a1]; exact .inr ⟨rfl, .del _ _ _ _ _ hh' hu e1 a1⟩

end

/-! ## Concrete cases -/

section
open Demo

def demoD : World Unit := ⟨Store.demoHeap, [], (), false, []⟩

/-- `{1: 2, 'a': 1}[1]`, and `d['a'] = 2` for the empty dictionary. -/
example : ((P.build .dict [.num (Lang.Demo.lit 1), .num (Lang.Demo.lit 2), .str 1, .num (Lang.Demo.lit 1)] demoD).1 = some (.list 2)) ∧
    (P.index (.list 2) (.num (Lang.Demo.lit 1))
      (P.build .dict [.num (Lang.Demo.lit 1), .num (Lang.Demo.lit 2), .str 1, .num (Lang.Demo.lit 1)] demoD).2).1 = some (.num (Lang.Demo.lit 2)) ∧
    (P.storeIdx .plain (.list 0) (.str 1) (.num (Lang.Demo.lit 2)) demoD).1 = some (.num (Lang.Demo.lit 2)) ∧
    (P.index (.list 0) (.str 1) demoD).1 = none := by decide +kernel

/-- The hypotheses hold for them. -/
example : (∀ q ∈ entries [Val.num (Lang.Demo.lit 1), .num (Lang.Demo.lit 2), .str 1, .num (Lang.Demo.lit 1)],
      Scalar (Store.demoKey q.1) ∧ Unfolds demoD.st.objs (Store.demoKey q.1) q.1) ∧
    History (env Demo.cfg) 0 Store.demoKey [] Store.demoHeap demoD.st ∧ Fits (env Demo.cfg) 4 := by
  refine ⟨?_, .start _, by show (4 + 4 / 8 + 6) * 4 < 2 ^ _; decide⟩
  intro q hq
  simp only [entries, List.mem_cons, List.not_mem_nil, or_false] at hq
  rcases hq with rfl | rfl
  · exact ⟨by intro h; revert h; decide +kernel, by simp [Store.demoKey, Unfolds]⟩
  · exact ⟨trivial, by simp [Store.demoKey, Unfolds, demoD, Store.demoHeap]⟩

end

end Snek.Machine
