import Verif.Spec.Picture
import Verif.Props.C14
/-!
# C14: the compacting collector does to lists and strings what the container operations rely on

`Model/Ptr` runs the container operations with any collector that satisfies `Coll.Good`. Here the compacting collector of `Model/Gc` is shown to do that
(`Moved`) to every pool in order, and the end of the used part to be an address that nothing uses.
-/
namespace Snek.Ptr
open Store (Val)
open Gc (St PObj collect Style)
open Spec

/-- The block with its references renamed. -/
def Blk.ren (ρ : Nat → Nat) : Blk → Blk
  | .str b => .str b
  | .head h => .head { h with data := if h.alloc = 0 then h.data else ρ h.data }
  | .words l => .words (l.map (Ptr.ren ρ))

open Classical in
/-- The pool with every block in use at its new address. -/
noncomputable def image (ρ : Nat → Nat) (p : P) : P :=
  { p with stack := p.stack.map (ren ρ), acc := ren ρ p.acc, ext := p.ext.map (ren ρ), empty := p.empty.map ρ
           blk := fun x => if h : ∃ a, p.Used a ∧ ρ a = x then (p.blk h.choose).map (Blk.ren ρ) else none }

section
variable {ρ : Nat → Nat} {p : P}

theorem addr_ren (v : Val) : addr (ren ρ v) = (addr v).map ρ := by cases v <;> rfl

theorem image_roots : (image ρ p).roots = p.roots.map (ren ρ) := by
  simp only [P.roots, image, List.map_append, List.map_cons]
  cases p.empty <;> rfl

variable (hinj : ∀ a b, p.Used a → p.Used b → ρ a = ρ b → a = b)
include hinj

theorem image_blk {a : Nat} (h : p.Used a) : (image ρ p).blk (ρ a) = (p.blk a).map (Blk.ren ρ) := by
  have hex : ∃ b, p.Used b ∧ ρ b = ρ a := ⟨a, h, rfl⟩
  simp only [image]
  rw [dif_pos hex, hinj _ _ hex.choose_spec.1 h hex.choose_spec.2]

theorem image_hd {a : Nat} (h : p.Used a) :
    (image ρ p).hd (ρ a) = (p.hd a).map fun h => { h with data := if h.alloc = 0 then h.data else ρ h.data } := by
  simp only [P.hd, image_blk hinj h]
  cases p.blk a with
  | none => rfl
  | some b => cases b <;> rfl

theorem image_wds {a : Nat} {h : Head} (ha : p.Reach a) (hh : p.hd a = some h) :
    (image ρ p).wds { h with data := if h.alloc = 0 then h.data else ρ h.data } = (p.wds h).map (List.map (ren ρ)) := by
  by_cases h0 : h.alloc = 0
  · simp only [P.wds, h0, if_true, Option.map_some, List.map_nil]
  · simp only [P.wds, h0, if_false]
    rw [image_blk hinj (.inr ⟨a, h, ha, hh, h0, rfl⟩)]
    cases p.blk h.data with
    | none => rfl
    | some b => cases b <;> rfl

theorem image_moved : Moved ρ p (image ρ p) where
  stack := rfl
  acc := rfl
  ext := rfl
  empty := rfl
  rest := ⟨rfl, rfl, rfl, rfl, rfl⟩
  inj := hinj
  str a b ha hb := by rw [image_blk hinj (.inl ha), hb]; rfl
  head a h ha hh := ⟨_, by rw [image_hd hinj (.inl ha), hh]; rfl, fun h0 => if_neg h0⟩
  words a h l ha hh h0 hl := by
    refine ⟨l.map (ren ρ), ?_, List.length_map _, fun m _ => List.getElem?_map⟩
    rw [image_blk hinj (.inr ⟨a, h, ha, hh, h0, rfl⟩)]
    simp only [P.wds, h0, if_false] at hl
    split at hl
    · rename_i e; cases hl; rw [e]; rfl
    · cases hl

theorem image_reach {x : Nat} (h : (image ρ p).Reach x) : ∃ a, p.Reach a ∧ ρ a = x := by
  induction h with
  | root hv ha =>
    rw [image_roots] at hv
    obtain ⟨v, hv', rfl⟩ := List.mem_map.1 hv
    rw [addr_ren] at ha
    obtain ⟨a, ha', rfl⟩ := Option.map_eq_some_iff.1 ha
    exact ⟨a, .root hv' ha', rfl⟩
  | elem _ hh hl hm hv hb ih =>
    obtain ⟨a, ha, rfl⟩ := ih
    rw [image_hd hinj (.inl ha)] at hh
    obtain ⟨h, hh', rfl⟩ := Option.map_eq_some_iff.1 hh
    rw [image_wds hinj ha hh'] at hl
    obtain ⟨l, hl', rfl⟩ := Option.map_eq_some_iff.1 hl
    rw [List.getElem?_map] at hv
    obtain ⟨v, hv', rfl⟩ := Option.map_eq_some_iff.1 hv
    rw [addr_ren] at hb
    obtain ⟨b, hb', rfl⟩ := Option.map_eq_some_iff.1 hb
    exact ⟨b, .elem ha hh' hl' hm hv' hb', rfl⟩

end

section
variable {word : Val → Nat} {w : Nat} {p : P} {s : St (PObj w)}

theorem enc_ren (ρ : Nat → Nat) (v : Val) : enc word (ren ρ v) = (enc word v).rename ρ := by cases v <;> rfl

theorem enc_ptr {v : Val} {a : Nat} (h : addr v = some a) : a ∈ (enc word v).ptrs := by
  cases v <;> simp [addr] at h <;> subst h <;> simp [enc, Gc.Val.ptrs]

theorem Pictures.reach (H : Pictures word p s) {a : Nat} (h : p.Reach a) : Reach s.heap s.roots a := by
  induction h with
  | root hv ha => exact .root (H.roots _ _ hv ha)
  | elem ha hh hl hm hv hb ih =>
    rename_i a b m h l v
    have h0 : h.alloc ≠ 0 := by
      intro h0
      simp only [P.wds, h0, if_true, Option.some.injEq] at hl
      subst hl; cases hv
    have h1 := H.head _ _ ha hh
    have h2 := H.words _ _ _ ha hh h0 hl
    have r1 : Reach s.heap s.roots h.data := .step ih h1 (by
      show h.data ∈ Gc.Obj.ptrs _
      simp [Gc.Obj.ptrs, h0])
    refine .step r1 h2 ?_
    show b ∈ Gc.Obj.ptrs _
    simp only [Gc.Obj.ptrs, List.mem_flatMap, List.mem_map]
    exact ⟨_, ⟨v, List.mem_of_getElem? (by rw [List.getElem?_take_of_lt hm]; exact hv), rfl⟩, enc_ptr hb⟩

theorem Pictures.used (H : Pictures word p s) {a : Nat} (h : p.Used a) : Reach s.heap s.roots a := by
  rcases h with h | ⟨b, hd, hb, hh, h0, rfl⟩
  · exact H.reach h
  · refine .step (H.reach hb) (H.head _ _ hb hh) ?_
    show hd.data ∈ Gc.Obj.ptrs _
    simp [Gc.Obj.ptrs, h0]

/-- A collection of a pool in order, of either style, is what the container operations take it for: the pool afterwards is the memory of a state to which
everything in use was moved, each block to an address of its own, with the references following (`Moved`). The end of the used part, where the next block
is made, is used by nothing. -/
theorem C14_containers (n pool : Nat) (hn : 0 < n) (ok : PoolOK pool s) (style : Style) (H : Pictures word p s) :
    ∃ s' ρ p', collect n pool style s = some s' ∧ PoolOK pool s' ∧ Moved ρ p p' ∧ Pictures word p' s' ∧ ¬ p'.Used s'.top := by
  obtain ⟨s', ρ, e, ok', ren, -, -, inj⟩ := Snek.C14_collect n pool hn s ok style
  have hinj : ∀ a b, p.Used a → p.Used b → ρ a = ρ b → a = b := fun a b ha hb => inj a b (H.used ha) (H.used hb)
  have hp : Pictures word (image ρ p) s' := by
    refine ⟨?_, ?_, ?_, ?_⟩
    · intro v a hv ha
      rw [image_roots] at hv
      obtain ⟨v, hv', rfl⟩ := List.mem_map.1 hv
      rw [addr_ren] at ha
      obtain ⟨a, ha', rfl⟩ := Option.map_eq_some_iff.1 ha
      rw [ren.rts]
      exact List.mem_map_of_mem (H.roots _ _ hv' ha')
    · intro x b hx hb
      obtain ⟨a, ha, rfl⟩ := image_reach hinj hx
      rw [image_blk hinj (.inl ha)] at hb
      obtain ⟨c, hc, hb⟩ := Option.map_eq_some_iff.1 hb
      cases c with
      | str t =>
        cases hb
        exact ren.objs _ _ (H.reach ha) (H.str _ _ ha hc)
      | head h => cases hb
      | words l => cases hb
    · intro x h hx hh
      obtain ⟨a, ha, rfl⟩ := image_reach hinj hx
      rw [image_hd hinj (.inl ha)] at hh
      obtain ⟨h, hh', rfl⟩ := Option.map_eq_some_iff.1 hh
      exact ren.objs _ _ (H.reach ha) (H.head _ _ ha hh')
    · intro x h l hx hh h0 hl
      obtain ⟨a, ha, rfl⟩ := image_reach hinj hx
      rw [image_hd hinj (.inl ha)] at hh
      obtain ⟨h, hh', rfl⟩ := Option.map_eq_some_iff.1 hh
      rw [image_wds hinj ha hh'] at hl
      obtain ⟨l, hl', rfl⟩ := Option.map_eq_some_iff.1 hl
      have h0 : h.alloc ≠ 0 := h0
      have := ren.objs _ _ (H.used (.inr ⟨a, h, ha, hh', h0, rfl⟩)) (H.words _ _ _ ha hh' h0 hl')
      simp only [h0, if_false]
      rw [this]
      show some (Gc.Obj.rename ρ _) = _
      simp only [Gc.Obj.rename, List.map_map, ← List.map_take]
      congr 2
      exact List.map_congr_left fun v _ => (enc_ren ρ v).symm
  refine ⟨s', ρ, image ρ p, e, ok', image_moved hinj, hp, fun hu => ?_⟩
  obtain ⟨b, -, h1, h2⟩ := ok'.wf.obj _ (hp.used hu)
  omega

/-- A list that contains itself, between garbage: the pool of `C14_demo`, as the container operations see it. -/
example : ∃ (p : P) (s : St (PObj 4)), PoolOK 64 s ∧ Pictures (fun _ => 0) p s ∧ p.Reach 16 ∧ p.stack = [.list 16] := by
  obtain ⟨outs, out, s, h, hr, -, h16, h4, -⟩ := C14_demo_state
  let p : P := ⟨fun a => if a = 16 then some (.head ⟨.list, 1, 1, 4⟩) else if a = 4 then some (.words [.list 16]) else none,
    [.list 16], [], .none, [], none, fun _ _ => true, 0, false, 8, 1⟩
  have hroot : ∀ a, p.Reach a → a = 16 := by
    intro a ha
    induction ha with
    | root hv ha =>
      simp only [P.roots, p, List.mem_append, List.mem_cons, List.not_mem_nil, or_false, Option.toList_none, List.map_nil] at hv
      rcases hv with rfl | rfl
      · cases ha; rfl
      · cases ha
    | elem _ hh hl hm hv hb ih =>
      subst ih
      simp only [P.hd, p, if_true, Option.some.injEq] at hh
      subst hh
      simp only [P.wds, p] at hl
      simp at hl
      subst hl
      rename_i m _ _
      cases m with
      | zero => cases hv; cases hb; rfl
      | succ m => cases hv
  refine ⟨p, s, C14_always 1 64 (by omega) _ _ _ _ h, ⟨?_, ?_, ?_, ?_⟩, .root (v := .list 16) (by simp [P.roots, p]) rfl, rfl⟩
  · intro v a hv ha
    rw [hroot a (.root hv ha), hr]; simp
  · intro a b ha hb
    rw [hroot a ha] at hb
    simp [p] at hb
  · intro a hd ha hh
    rw [hroot a ha] at hh ⊢
    simp only [P.hd, p, if_true, Option.some.injEq] at hh
    subst hh
    exact h16
  · intro a hd l ha hh h0 hl
    rw [hroot a ha] at hh
    simp only [P.hd, p, if_true, Option.some.injEq] at hh
    subst hh
    simp [P.wds, p] at hl
    subst hl
    exact h4

end
end Snek.Ptr
