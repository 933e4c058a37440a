import Verif.Proofs.Dict
/-!
# C08 Deleting a dictionary key removes only that key
-/
namespace Snek
open Spec Dict

/-- After any history, `del d[k]` succeeds and the entries afterwards are exactly the entries before whose key is not equal
to `k`, in the same order. In particular nothing changes when `k` is absent. (No error is reported for an absent key; the
property as stated does not ask for one.) -/
theorem C08_delete_partial (K : Tree → Prop) (hK : ∀ k, K k → Stored k ∧ k.mutable = false) (hc : ∀ a b, K a → K b → ¬ PrefixClash a b)
    (junk : Nat → Tree) (j : Tree) (h : List (DictOp Tree)) (hh : ∀ op ∈ h, K op.key) (k : Tree) (hk : K k) :
    ∃ d d', run Tree.cmp Tree.mutable junk h [] = some d ∧ del Tree.cmp Tree.mutable j d k = .ok d' ∧
      d'.length % 2 = 0 ∧
      ∃ lo hi, (∀ e ∈ lo ++ hi, ¬ Same k e.1) ∧ entries d' = lo ++ hi ∧
        ((entries d = lo ++ hi ∧ d' = d) ∨ ∃ e, Same k e.1 ∧ entries d = lo ++ e :: hi) := by
  have O := ordTree K (fun k hk => (hK k hk).1) hc
  have hE : ∀ a b, K a → K b → (a.cmp b = 0 ↔ Same a b) := fun a b ha hb => by
    rw [cmp_zero_ok, okCmp_same a b (hK a ha).1 (hK b hb).1]
  obtain ⟨ps, h1, R⟩ := (Repr.init O hE).run O hE Tree.mutable junk h (fun op ho => ⟨hh op ho, (hK _ (hh op ho)).2⟩)
  have hKp := R.sorted.key
  obtain ⟨lo, hi, hlo, hhi, hd, hcase⟩ := del_spec O Tree.mutable j ps k R.sorted hk (hK k hk).2
  have hsub : ∀ e ∈ lo ++ hi, e ∈ ps := by
    intro e he
    rcases hcase with ⟨k0, w, -, hps⟩ | hps
    · rw [hps]; simp only [List.mem_append, List.mem_cons] at he ⊢
      rcases he with he | he
      · exact Or.inl he
      · exact Or.inr (Or.inr he)
    · rw [hps]; exact he
  refine ⟨flat ps, flat (lo ++ hi), h1, hd, by rw [flat_length]; omega, lo, hi, ?_, entries_flat _, ?_⟩
  · intro e he
    have hke := hKp e (hsub e he)
    rw [← hE k e.1 hk hke]
    rcases List.mem_append.1 he with h' | h'
    · have := hlo e h'; have := O.anti e.1 k hke hk; omega
    · have := hhi e h'; omega
  · rw [entries_flat]
    rcases hcase with ⟨k0, w, he, hps⟩ | hps
    · right; exact ⟨(k0, w), (hE k k0 hk (hKp (k0, w) (by rw [hps]; simp))).1 he, hps⟩
    · left; exact ⟨hps, by rw [hps]⟩

/-! Hypotheses are met: see `C06_scalar_keys` and the example there; here the scalars themselves. -/
example : (∀ k, Scalar k → Stored k ∧ k.mutable = false) ∧ Scalar (.str [97]) ∧ Scalar (.num 0x3f800000#32) := by
  refine ⟨fun k hk => ⟨scalar_stored hk, ?_⟩, trivial, by intro h; revert h; decide⟩
  cases k <;> simp_all [Scalar, Tree.mutable]

end Snek
