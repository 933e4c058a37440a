import Verif.Proofs.PtrSim
/-!
# Copying words between storages that agree
-/
namespace Snek.Ptr
open Store (Val S Obj LObj Env mcpy mread mmove mset)

variable {φ : Nat → Nat} {bad : Nat → Prop} {n : Nat} {l data : List Val}

theorem get_mcpy {α : Type} {d src d' : List α} {k : Nat} (h : mcpy d k src = some d') (m : Nat) :
    d'[m]? = if k ≤ m ∧ m < k + src.length then src[m - k]? else d[m]? := by
  unfold mcpy at h
  split at h
  · rename_i hk
    injection h with h
    subst h
    by_cases h1 : m < k
    · rw [if_neg (by omega), List.append_assoc, List.getElem?_append_left (by simp; omega), List.getElem?_take_of_lt h1]
    · by_cases h2 : m < k + src.length
      · rw [if_pos (by omega), List.append_assoc, List.getElem?_append_right (by simp; omega), List.getElem?_append_left (by simp; omega)]
        congr 1
        simp; omega
      · rw [if_neg (by omega), List.getElem?_append_right (by simp; omega), List.getElem?_drop]
        congr 1
        simp; omega
  · cases h

theorem get_mmove {α : Type} {d d' : List α} {a b c : Nat} (h : mmove d a b c = some d') (m : Nat) :
    d'[m]? = if a ≤ m ∧ m < a + c then d[b + (m - a)]? else d[m]? := by
  unfold mmove at h
  split at h
  · rename_i hk
    injection h with h
    subst h
    have hl : ((d.drop b).take c).length = c := by simp; omega
    by_cases h1 : m < a
    · rw [if_neg (by omega), List.append_assoc, List.getElem?_append_left (by simp; omega), List.getElem?_take_of_lt h1]
    · by_cases h2 : m < a + c
      · rw [if_pos (by omega), List.append_assoc, List.getElem?_append_right (by simp; omega), List.getElem?_append_left (by simp; omega),
          List.getElem?_take_of_lt (by simp; omega), List.getElem?_drop]
        congr 1
        simp; omega
      · rw [if_neg (by omega), List.getElem?_append_right (by simp; omega), List.getElem?_drop]
        congr 1
        simp; omega
  · cases h

theorem get_mset {α : Type} {d d' : List α} {k : Nat} {x : α} (h : mset d k x = some d') (m : Nat) :
    d'[m]? = if m = k then some x else d[m]? := by
  unfold mset at h
  split at h
  · rename_i hk
    injection h with h
    subst h
    by_cases e : m = k
    · subst e; simp [hk]
    · rw [if_neg e, List.getElem?_set_ne (by omega)]
  · cases h

theorem Agree.mread (A : Agree φ bad n l data) {k : Nat} {d : List Val} (hk : k ≤ n) (hb : ∀ m, m < k → ¬bad m)
    (h : mread data k = some d) : mread l k = some (d.map (ren φ)) := by
  unfold Store.mread at h ⊢
  split at h
  · rename_i hl
    injection h with h
    rw [if_pos (A.1 ▸ hl)]
    subst h
    congr 1
    apply List.ext_getElem?
    intro m
    by_cases hm : m < k
    · rw [List.getElem?_take_of_lt hm, A.2 m (by omega) (hb m hm), List.getElem?_map, List.getElem?_take_of_lt hm]
    · rw [List.getElem?_eq_none (by simp; omega), List.getElem?_eq_none (by simp; omega)]
  · cases h

theorem Agree.mcpy (A : Agree φ bad n l data) {k : Nat} {src d : List Val} (h : mcpy data k src = some d) :
    ∃ l', mcpy l k (src.map (ren φ)) = some l' ∧ Agree φ (fun m => bad m ∧ ¬(k ≤ m ∧ m < k + src.length)) n l' d := by
  have hk : k + src.length ≤ data.length := by
    unfold Store.mcpy at h; split at h
    · assumption
    · cases h
  have e : Store.mcpy l k (src.map (ren φ)) = some _ := Store.mcpy_ok (by simpa [A.1] using hk)
  refine ⟨_, e, ?_, ?_⟩
  · rw [Store.mcpy_len e, Store.mcpy_len h, A.1]
  · intro m hm hb
    rw [get_mcpy e, get_mcpy h]
    simp only [List.length_map]
    by_cases hc : k ≤ m ∧ m < k + src.length
    · rw [if_pos hc, if_pos hc, List.getElem?_map]
    · rw [if_neg hc, if_neg hc]
      exact A.2 m hm (fun h => hb ⟨h, hc⟩)

theorem Agree.mmove (A : Agree φ bad n l data) {a b c : Nat} {d : List Val} (h : mmove data a b c = some d) (hb : b + c ≤ n) :
    ∃ l', mmove l a b c = some l' ∧
      Agree φ (fun m => if a ≤ m ∧ m < a + c then bad (b + (m - a)) else bad m) n l' d := by
  have hk : b + c ≤ data.length ∧ a + c ≤ data.length := by
    unfold Store.mmove at h; split at h
    · assumption
    · cases h
  have e : Store.mmove l a b c = some _ := if_pos (by rw [A.1]; exact hk)
  refine ⟨_, e, ?_, ?_⟩
  · rw [Store.mmove_len e, Store.mmove_len h, A.1]
  · intro m hm hx
    rw [get_mmove e, get_mmove h]
    by_cases hc : a ≤ m ∧ m < a + c
    · rw [if_pos hc, if_pos hc]
      simp only [if_pos hc] at hx
      exact A.2 _ (by omega) hx
    · rw [if_neg hc, if_neg hc]
      simp only [if_neg hc] at hx
      exact A.2 m hm hx

theorem Agree.mset (A : Agree φ bad n l data) {k : Nat} {x : Val} {d : List Val} (h : mset data k x = some d) :
    ∃ l', mset l k (ren φ x) = some l' ∧ Agree φ (fun m => bad m ∧ m ≠ k) n l' d := by
  have hk : k < data.length := by
    unfold Store.mset at h; split at h
    · assumption
    · cases h
  have e : Store.mset l k (ren φ x) = some _ := if_pos (by rw [A.1]; exact hk)
  refine ⟨_, e, ?_, ?_⟩
  · rw [Store.mset_len e, Store.mset_len h, A.1]
  · intro m hm hb
    rw [get_mset e, get_mset h]
    by_cases hc : m = k
    · rw [if_pos hc, if_pos hc]; rfl
    · rw [if_neg hc, if_neg hc]
      exact A.2 m hm (fun h => hb ⟨h, hc⟩)

theorem Agree.mono {bad' : Nat → Prop} {n' : Nat} (A : Agree φ bad n l data) (hn : ∀ m, m < n' → ¬bad' m → m < n ∧ ¬bad m) :
    Agree φ bad' n' l data := ⟨A.1, fun m hm hb => A.2 m (hn m hm hb).1 (hn m hm hb).2⟩

theorem Agree.take (A : Agree φ bad n l data) (hb : ∀ m, m < n → ¬bad m) : l.take n = (data.take n).map (ren φ) := by
  apply List.ext_getElem?
  intro m
  by_cases hm : m < n
  · rw [List.getElem?_take_of_lt hm, A.2 m hm (hb m hm), List.getElem?_map, List.getElem?_take_of_lt hm]
  · rw [List.getElem?_eq_none (by simp; omega), List.getElem?_eq_none (by simp; omega)]

theorem map_zero (φ : Nat → Nat) (k : Nat) : (List.replicate k Val.zero).map (ren φ) = List.replicate k Val.zero := by
  rw [List.map_replicate]; rfl

theorem mcpy_map {k : Nat} {d src d' : List Val} (h : mcpy d k src = some d') :
    mcpy (d.map (ren φ)) k (src.map (ren φ)) = some (d'.map (ren φ)) := by
  unfold Store.mcpy at h ⊢
  split at h
  · rename_i hk
    injection h with h
    subst h
    rw [if_pos (by simpa using hk)]
    simp
  · cases h

theorem Agree.of_map (φ : Nat → Nat) (bad : Nat → Prop) (n : Nat) (d : List Val) : Agree φ bad n (d.map (ren φ)) d :=
  ⟨by simp, fun m _ _ => by rw [List.getElem?_map]⟩

end Snek.Ptr
