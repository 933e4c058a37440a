import Verif.Proofs.Dict
/-!
# C12 Mutable keys are refused
-/
namespace Spec
open Snek
/-- A value that can change: a list, a dictionary, or a tuple containing such a value at any depth. -/
inductive Changeable : Tree → Prop
  | list (l) : Changeable (.list .list l)
  | dict (l) : Changeable (.list .dict l)
  | tuple (l x) : x ∈ l → Changeable x → Changeable (.list .tuple l)
end Spec

namespace Snek
open Spec Dict

mutual
private theorem mutable_changeable : ∀ k : Tree, k.mutable = true → Changeable k
  | .list .list l, _ => .list l
  | .list .dict l, _ => .dict l
  | .list .tuple l, h => by
      simp only [Tree.mutable, LType.readonly, if_true] at h
      obtain ⟨x, hx, hc⟩ := anyMutable_changeable l h
      exact .tuple l x hx hc
  | .num _, h => by simp [Tree.mutable] at h
  | .str _, h => by simp [Tree.mutable] at h
  | .func _, h => by simp [Tree.mutable] at h
  | .builtin _, h => by simp [Tree.mutable] at h
private theorem anyMutable_changeable : ∀ l : List Tree, anyMutable l = true → ∃ x ∈ l, Changeable x
  | [], h => by simp [anyMutable] at h
  | x :: l, h => by
      simp only [anyMutable, Bool.or_eq_true] at h
      rcases h with h | h
      · exact ⟨x, List.mem_cons_self, mutable_changeable x h⟩
      · obtain ⟨y, hy, hc⟩ := anyMutable_changeable l h
        exact ⟨y, List.mem_cons_of_mem _ hy, hc⟩
end

private theorem anyMutable_mem (l : List Tree) (x : Tree) (hx : x ∈ l) (h : x.mutable = true) : anyMutable l = true := by
  induction l with
  | nil => cases hx
  | cons y l ih =>
    simp only [anyMutable, Bool.or_eq_true]
    rcases List.mem_cons.1 hx with e | e
    · subst e; exact Or.inl h
    · exact Or.inr (ih e)

private theorem changeable_mutable {k : Tree} (h : Changeable k) : k.mutable = true := by
  induction h with
  | list l => simp [Tree.mutable, LType.readonly]
  | dict l => simp [Tree.mutable, LType.readonly]
  | tuple l x hx _ ih => simp only [Tree.mutable, LType.readonly, if_true]; exact anyMutable_mem l x hx ih

/-- `snek_mutable` recognises exactly the changeable values. -/
theorem C12_mutable_iff (k : Tree) : k.mutable = true ↔ Changeable k := ⟨mutable_changeable k, changeable_mutable⟩

mutual
private theorem cmp_mutable : ∀ a b : Tree, a.cmp b = 0 → a.mutable = b.mutable
  | .num _, .num _, _ | .str _, .str _, _ | .func _, .func _, _ | .builtin _, .builtin _, _ => rfl
  | .list t l, .list t' l', h => by
      simp only [Tree.cmp] at h
      split at h
      · rename_i hh; exact absurd h hh
      · rename_i hh
        simp only [ne_eq, Decidable.not_not, LType.num_inj] at hh
        subst hh
        simp only [Tree.mutable, cmpList_mutable l l' h]
  | .num _, .str _, h | .num _, .list _ _, h | .num _, .func _, h | .num _, .builtin _, h => by simp [Tree.cmp, Tree.type, PType.num] at h
  | .str _, .num _, h | .str _, .list _ _, h | .str _, .func _, h | .str _, .builtin _, h => by simp [Tree.cmp, Tree.type, PType.num] at h
  | .list _ _, .num _, h | .list _ _, .str _, h | .list _ _, .func _, h | .list _ _, .builtin _, h => by simp [Tree.cmp, Tree.type, PType.num] at h
  | .func _, .num _, h | .func _, .str _, h | .func _, .list _ _, h | .func _, .builtin _, h => by simp [Tree.cmp, Tree.type, PType.num] at h
  | .builtin _, .num _, h | .builtin _, .str _, h | .builtin _, .list _ _, h | .builtin _, .func _, h => by simp [Tree.cmp, Tree.type, PType.num] at h
private theorem cmpList_mutable : ∀ a b : List Tree, cmpList a b = 0 → anyMutable a = anyMutable b
  | [], [], _ => rfl
  | [], _ :: _, h => by simp [cmpList] at h
  | _ :: _, [], h => by simp [cmpList] at h
  | x :: l, y :: l', h => by
      simp only [cmpList] at h
      split at h
      · rename_i hh; exact absurd h hh
      · rename_i hh
        simp only [ne_eq, Decidable.not_not] at hh
        simp only [anyMutable, cmp_mutable x y hh, cmpList_mutable l l' h]
end

/-- Entries whose keys cannot change. -/
private def Fixed (ps : List (Tree × Tree)) : Prop := ∀ q ∈ ps, q.1.mutable = false

private theorem ref_cases (ps : List (Tree × Tree)) (hf : Fixed ps) (j p : Tree) :
    (p.mutable = true ∧ ref Tree.cmp Tree.mutable j (flat ps) p true = .fail) ∨
    (p.mutable = false ∧ ∃ lo hi k w, k.mutable = false ∧ ref Tree.cmp Tree.mutable j (flat ps) p true = .slot (flat (lo ++ (k, w) :: hi)) (2 * lo.length + 1)
      ∧ Fixed (lo ++ hi)) := by
  obtain ⟨i, h1, -, h3, -⟩ := search_range Tree.cmp ps p ps.length 0 ps.length (by omega) (by omega) (Nat.le_refl _)
  rw [← flat_length] at h1
  obtain ⟨w, hw⟩ := insert_flat j ps i h3 p
  have hins : p.mutable = false → ∃ lo hi k w, k.mutable = false ∧ Ref.slot (insert j (flat ps) (2 * i) p) (2 * i + 1) = .slot (flat (lo ++ (k, w) :: hi)) (2 * lo.length + 1)
      ∧ Fixed (lo ++ hi) := by
    intro hm
    refine ⟨ps.take i, ps.drop i, p, w, hm, ?_, by rw [List.take_append_drop]; exact hf⟩
    rw [hw, List.length_take, Nat.min_eq_left h3]
  unfold ref
  rw [show (2 : Nat) * 0 = 0 from rfl] at h1
  rw [h1]
  simp only [flat_even]
  cases hg : ps[i]? with
  | none =>
    cases hm : p.mutable with
    | true => left; simp [hm]
    | false => right; refine ⟨rfl, ?_⟩; simpa [hm] using hins hm
  | some q =>
    simp only [Option.map_some]
    by_cases hc : p.cmp q.1 = 0
    · right
      have hm := cmp_mutable p q.1 hc
      have hq := hf q (List.mem_of_getElem? hg)
      obtain ⟨hi, hsp⟩ := split_at ps i q.1 q.2 hg
      refine ⟨by rw [hm, hq], ps.take i, ps.drop (i + 1), q.1, q.2, hq, ?_, ?_⟩
      · rw [← hsp, List.length_take, Nat.min_eq_left h3]; simp [hc]
      · intro x hx
        rcases List.mem_append.1 hx with h | h
        · exact hf x (List.mem_of_mem_take h)
        · exact hf x (List.mem_of_mem_drop h)
    · cases hm : p.mutable with
      | true => left; simp [hm, hc]
      | false => right; refine ⟨rfl, ?_⟩; simpa [hm, hc] using hins hm

private theorem fixed_step (ps : List (Tree × Tree)) (hf : Fixed ps) (j : Tree) (op : DictOp Tree) :
    ∃ ps', step Tree.cmp Tree.mutable j (flat ps) op = some (flat ps') ∧ Fixed ps' := by
  cases op with
  | store k v =>
    rcases ref_cases ps hf j k with ⟨-, hr⟩ | ⟨-, lo, hi, k', w, hk', hr, hf'⟩
    · exact ⟨ps, by simp [step, store, hr], hf⟩
    · refine ⟨lo ++ (k', v) :: hi, ?_, ?_⟩
      · simp only [step, store, hr]
        rw [if_pos (by rw [flat_length]; simp; omega)]
        simp only [flat_set lo hi lo.length rfl]
      · intro q hq
        simp only [List.mem_append, List.mem_cons] at hq
        rcases hq with h | h | h
        · exact hf' q (List.mem_append_left _ h)
        · rw [h]; exact hk'
        · exact hf' q (List.mem_append_right _ h)
  | del k =>
    rcases ref_cases ps hf j k with ⟨-, hr⟩ | ⟨-, lo, hi, k', w, hk', hr, hf'⟩
    · exact ⟨ps, by simp [step, del, hr], hf⟩
    · refine ⟨lo ++ hi, ?_, hf'⟩
      simp only [step, del, hr]
      congr 1
      rw [show 2 * lo.length + 1 - 1 = 2 * lo.length by omega, show 2 * lo.length + 2 = 2 * (lo.length + 1) by omega, flat_take, flat_drop, ← flat_append]
      congr 2
      · rw [List.take_append_of_le_length (Nat.le_refl _), List.take_length]
      · rw [List.drop_append]; simp

private theorem fixed_run (ps : List (Tree × Tree)) (hf : Fixed ps) (junk : Nat → Tree) (ops : List (DictOp Tree)) :
    ∃ ps', run Tree.cmp Tree.mutable junk ops (flat ps) = some (flat ps') ∧ Fixed ps' := by
  induction ops generalizing ps with
  | nil => exact ⟨ps, rfl, hf⟩
  | cons op ops ih =>
    obtain ⟨ps1, h1, h2⟩ := fixed_step ps hf (junk ops.length) op
    obtain ⟨ps2, h3, h4⟩ := ih ps1 h2
    exact ⟨ps2, by simp [run, h1, h3], h4⟩

/-- After any history whatsoever (no assumption on the keys): no operation faults, storing under a changeable key is an error
that leaves the dictionary as it was, and storing under any other key succeeds. -/
theorem C12_mutable_refused (junk : Nat → Tree) (j : Tree) (h : List (DictOp Tree)) :
    ∃ d, run Tree.cmp Tree.mutable junk h [] = some d ∧
      (∀ k v, Changeable k → store Tree.cmp Tree.mutable j d k v = .error ∧ step Tree.cmp Tree.mutable j d (.store k v) = some d) ∧
      (∀ k v, ¬ Changeable k → ∃ d', store Tree.cmp Tree.mutable j d k v = .ok d') ∧
      (∀ e ∈ entries d, ¬ Changeable e.1) := by
  obtain ⟨ps, h1, hf⟩ := fixed_run [] (by intro q hq; cases hq) junk h
  refine ⟨flat ps, h1, ?_, ?_, ?_⟩
  · intro k v hk
    rw [← C12_mutable_iff] at hk
    rcases ref_cases ps hf j k with ⟨-, hr⟩ | ⟨hm, -⟩
    · exact ⟨by simp [store, hr], by simp [step, store, hr]⟩
    · rw [hk] at hm; cases hm
  · intro k v hk
    rw [← C12_mutable_iff] at hk
    rcases ref_cases ps hf j k with ⟨hm, -⟩ | ⟨-, lo, hi, k', w, -, hr, -⟩
    · exact absurd hm hk
    · have hlt : 2 * lo.length + 1 < (flat (lo ++ (k', w) :: hi)).length := by rw [flat_length]; simp; omega
      exact ⟨(flat (lo ++ (k', w) :: hi)).set (2 * lo.length + 1) v, by simp only [store, hr, if_pos hlt]⟩
  · rw [entries_flat]
    intro e he
    rw [← C12_mutable_iff, hf e he]; simp

/-! Both kinds of key exist, at depth. -/
example : Changeable (.list .tuple [.num 0#32, .list .tuple [.str [], .list .list []]]) :=
  .tuple _ _ (List.mem_cons_of_mem _ List.mem_cons_self) (.tuple _ _ (List.mem_cons_of_mem _ List.mem_cons_self) (.list _))
example : ¬ Changeable (.list .tuple [.num 0#32, .list .tuple [.str []]]) := by
  rw [← C12_mutable_iff]; decide

end Snek
