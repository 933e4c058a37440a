/- The pool objects obey the laws of renaming. -/
import Verif.Model.HeapObj
import Verif.Spec.Gc

namespace Snek.Gc
open Spec HeapObj

theorem Val.ptrs_rename (f : Nat → Nat) (v : Val) : (v.rename f).ptrs = v.ptrs.map f := by
  cases v <;> rfl

theorem CodeItem.ptrs_rename (f : Nat → Nat) (v : CodeItem) : (v.rename f).ptrs = v.ptrs.map f := by
  cases v <;> rfl

theorem Val.rename_congr (f g : Nat → Nat) (v : Val) (h : ∀ p ∈ v.ptrs, f p = g p) :
    v.rename f = v.rename g := by
  cases v with
  | imm w => rfl
  | ref k o => simp [Val.rename, h o (by simp [Val.ptrs])]

theorem CodeItem.rename_congr (f g : Nat → Nat) (v : CodeItem) (h : ∀ p ∈ v.ptrs, f p = g p) :
    v.rename f = v.rename g := by
  cases v with
  | byte w => rfl
  | str o => simp [CodeItem.rename, h o (by simp [CodeItem.ptrs])]

theorem Val.rename_id (v : Val) : v.rename id = v := by cases v <;> rfl
theorem CodeItem.rename_id (v : CodeItem) : v.rename id = v := by cases v <;> rfl
theorem Val.rename_comp (f g : Nat → Nat) (v : Val) : (v.rename g).rename f = v.rename (fun x => f (g x)) := by
  cases v <;> rfl
theorem CodeItem.rename_comp (f g : Nat → Nat) (v : CodeItem) :
    (v.rename g).rename f = v.rename (fun x => f (g x)) := by
  cases v <;> rfl
theorem CodeItem.bytes_rename (w : Nat) (f : Nat → Nat) (v : CodeItem) : (v.rename f).bytes w = v.bytes w := by
  cases v <;> rfl

theorem Obj.ptrs_rename (f : Nat → Nat) (b : Obj) : (b.rename f).ptrs = b.ptrs.map f := by
  cases b with
  | str t => rfl
  | list ty size alloc data =>
    by_cases h : alloc = 0 <;> simp [Obj.rename, Obj.ptrs, h]
  | store alloc elems =>
    simp [Obj.rename, Obj.ptrs, List.flatMap_map, List.map_flatMap, Val.ptrs_rename]
  | func nr code formals => cases code <;> rfl
  | bytecode items =>
    simp [Obj.rename, Obj.ptrs, List.flatMap_map, List.map_flatMap, CodeItem.ptrs_rename]
  | frame prev code ip vars =>
    simp only [Obj.rename, Obj.ptrs, List.flatMap_map, List.map_append, List.map_flatMap, Val.ptrs_rename]
    congr 1
    cases code <;> cases prev <;> rfl
  | name next t => cases next <;> rfl
  | compile alloc items =>
    simp [Obj.rename, Obj.ptrs, List.flatMap_map, List.map_flatMap, CodeItem.ptrs_rename]

theorem Obj.rename_congr (f g : Nat → Nat) (b : Obj) (h : ∀ p ∈ b.ptrs, f p = g p) :
    b.rename f = b.rename g := by
  cases b with
  | str t => rfl
  | list ty size alloc data =>
    by_cases h0 : alloc = 0
    · simp [Obj.rename, h0]
    · simp [Obj.rename, h0, h data (by simp [Obj.ptrs, h0])]
  | store alloc elems =>
    simp only [Obj.rename]
    congr 1
    apply List.map_congr_left
    intro v hv
    apply Val.rename_congr
    intro p hp
    exact h p (List.mem_flatMap.2 ⟨v, hv, hp⟩)
  | func nr code formals =>
    cases code with
    | none => rfl
    | some c => simp [Obj.rename, h c (by simp [Obj.ptrs])]
  | bytecode items =>
    simp only [Obj.rename]
    congr 1
    apply List.map_congr_left
    intro v hv
    apply CodeItem.rename_congr
    intro p hp
    exact h p (List.mem_flatMap.2 ⟨v, hv, hp⟩)
  | frame prev code ip vars =>
    have h1 : prev.map f = prev.map g := by
      cases prev with
      | none => rfl
      | some p => simp [h p (by simp [Obj.ptrs])]
    have h2 : code.map f = code.map g := by
      cases code with
      | none => rfl
      | some p => simp [h p (by simp [Obj.ptrs])]
    simp only [Obj.rename, h1, h2]
    congr 1
    apply List.map_congr_left
    intro v hv
    congr 1
    apply Val.rename_congr
    intro p hp
    exact h p (List.mem_append_left _ (List.mem_flatMap.2 ⟨v, hv, hp⟩))
  | name next t =>
    cases next with
    | none => rfl
    | some c => simp [Obj.rename, h c (by simp [Obj.ptrs])]
  | compile alloc items =>
    simp only [Obj.rename]
    congr 1
    apply List.map_congr_left
    intro v hv
    apply CodeItem.rename_congr
    intro p hp
    exact h p (List.mem_flatMap.2 ⟨v, hv, hp⟩)

theorem Obj.size_rename (w : Nat) (f : Nat → Nat) (b : Obj) : (b.rename f).size w = b.size w := by
  cases b <;> simp [Obj.rename, Obj.size, Function.comp_def, CodeItem.bytes_rename]

theorem Obj.rename_id (b : Obj) : b.rename id = b := by
  have h1 : Val.rename id = id := by funext v; exact Val.rename_id v
  have h2 : CodeItem.rename id = id := by funext v; exact CodeItem.rename_id v
  cases b <;> simp [Obj.rename, h1, h2]

theorem Obj.rename_comp (f g : Nat → Nat) (b : Obj) :
    (b.rename g).rename f = b.rename (fun x => f (g x)) := by
  cases b <;> simp [Obj.rename, Function.comp_def, Val.rename_comp, CodeItem.rename_comp]
  rename_i size alloc data
  by_cases h : alloc = 0 <;> simp [h]

instance (w : Nat) : LawfulHeapObj (PObj w) where
  size_rename := Obj.size_rename w
  ptrs_rename := Obj.ptrs_rename
  rename_congr := Obj.rename_congr
  rename_id := Obj.rename_id
  rename_comp := Obj.rename_comp

/-- Sizes are multiples of the allocation unit. -/
theorem Obj.size_round (w : Nat) (b : Obj) : b.size w % 4 = 0 := by
  cases b <;> simp only [Obj.size, sizeRound] <;> omega

end Snek.Gc
