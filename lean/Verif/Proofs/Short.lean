import Verif.Spec.Store
import Verif.Proofs.Store
/-!
# Operators run out of memory only when the allocator refuses
-/
namespace Snek.Store

variable {E : Env}

theorem short_ask {s : S} {n : Nat} (h : (s.ask n).1 = false) : s.Short := ⟨s.clock, n, Nat.le_refl _, h⟩

theorem short_later {s s' : S} (h : s'.Short) (h1 : s.clock ≤ s'.clock) (h2 : s'.mem = s.mem) : s.Short := by
  obtain ⟨k, n, h3, h4⟩ := h
  exact ⟨k, n, Nat.le_trans h1 h3, by rw [← h2]; exact h4⟩

theorem resize_short {s s' : S} {i n : Nat} (h : resize E s i n = some (false, s')) : s.Short := by
  simp only [resize, Option.bind_eq_bind, Option.pure_def] at h
  obtain ⟨o, -, h⟩ := Option.bind_eq_some_iff.1 h
  split at h
  · simp at h
  · cases hm : (s.ask (E.off ((if o.type.readonly = true then n else listAlloc E n) * 4))).1 with
    | false => exact short_ask hm
    | true =>
      simp only [hm, Bool.not_true, Bool.false_eq_true, if_false] at h
      obtain ⟨_, -, h⟩ := Option.bind_eq_some_iff.1 h
      obtain ⟨_, -, h⟩ := Option.bind_eq_some_iff.1 h
      simp at h

theorem make_short {s s' : S} {n : Nat} {t : LType} (h : make E s n t = some (none, s')) : s.Short := by
  unfold make at h
  cases hm : (s.ask (E.A.offBits / 2)).1 with
  | false => exact short_ask hm
  | true =>
    simp only [headAlloc, hm, if_true] at h
    split at h
    · split at h <;> simp at h
    · simp only [Option.bind_eq_bind, Option.pure_def] at h
      obtain ⟨⟨b, s1⟩, h1, h⟩ := Option.bind_eq_some_iff.1 h
      cases b with
      | true => simp at h
      | false => exact short_later (resize_short h1) (by simp [S.push, S.ask]) rfl

theorem plus_short {s s' : S} {i j : Nat} (h : plus E s i j = some (none, s')) : s.Short := by
  simp only [plus, Option.bind_eq_bind, Option.pure_def] at h
  obtain ⟨a, -, h⟩ := Option.bind_eq_some_iff.1 h
  obtain ⟨b, -, h⟩ := Option.bind_eq_some_iff.1 h
  obtain ⟨⟨r, s1⟩, h1, h⟩ := Option.bind_eq_some_iff.1 h
  cases r with
  | none => exact make_short h1
  | some n =>
    simp only [] at h
    obtain ⟨_, -, h⟩ := Option.bind_eq_some_iff.1 h
    obtain ⟨_, -, h⟩ := Option.bind_eq_some_iff.1 h
    obtain ⟨_, -, h⟩ := Option.bind_eq_some_iff.1 h
    obtain ⟨_, -, h⟩ := Option.bind_eq_some_iff.1 h
    simp at h

theorem times_short {s s' : S} {i : Nat} {n : Int} (h : times E s i n = some (none, s')) : s.Short := by
  simp only [times, Option.bind_eq_bind, Option.pure_def] at h
  obtain ⟨a, -, h⟩ := Option.bind_eq_some_iff.1 h
  obtain ⟨⟨r, s1⟩, h1, h⟩ := Option.bind_eq_some_iff.1 h
  cases r with
  | none => exact make_short h1
  | some m =>
    simp only [] at h
    generalize (if n < 0 then 0 else n.toNat) = c at h
    by_cases hc : c = 0
    · simp [hc] at h
    · rw [if_neg hc] at h
      obtain ⟨_, -, h⟩ := Option.bind_eq_some_iff.1 h
      obtain ⟨_, -, h⟩ := Option.bind_eq_some_iff.1 h
      simp at h

theorem append_short {s s' : S} {i j : Nat} (h : append E s i j = some (none, s')) : s.Short := by
  simp only [append, Option.bind_eq_bind, Option.pure_def] at h
  obtain ⟨a, -, h⟩ := Option.bind_eq_some_iff.1 h
  obtain ⟨b, -, h⟩ := Option.bind_eq_some_iff.1 h
  obtain ⟨⟨r, s1⟩, h1, h⟩ := Option.bind_eq_some_iff.1 h
  cases r with
  | false => exact resize_short h1
  | true =>
    simp only [Bool.not_true, Bool.false_eq_true, if_false] at h
    obtain ⟨_, -, h⟩ := Option.bind_eq_some_iff.1 h
    obtain ⟨_, -, h⟩ := Option.bind_eq_some_iff.1 h
    simp at h

end Snek.Store
