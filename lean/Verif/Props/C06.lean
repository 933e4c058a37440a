import Verif.Proofs.Dict
/-!
# C06 A dictionary is a finite map

`K` is the set of keys used. The hypotheses say that keys are in stored form, immutable, and that no key is a tuple that is a
proper prefix of another (where the code's comparison is not an order, see C03 and `C06_violated_tuple_prefix`). They hold for all
scalars (`C06_scalar_keys`) and for all tuples of one fixed length of scalars.
-/
namespace Snek
open Spec Dict

/-- After any history of stores and deletes, reads, membership, length and entries are those of the finite map the history
describes; no operation faults. -/
theorem C06_map_partial (K : Tree → Prop) (hK : ∀ k, K k → Stored k ∧ k.mutable = false) (hc : ∀ a b, K a → K b → ¬ PrefixClash a b)
    (junk : Nat → Tree) (j : Tree) (h : List (DictOp Tree)) (hh : ∀ op ∈ h, K op.key) :
    ∃ d, run Tree.cmp Tree.mutable junk h [] = some d ∧
      (∀ k, K k → ∀ v, get Tree.cmp Tree.mutable j d k = .ok v ↔ Holds Same h.reverse k v) ∧
      (∀ k, K k → (get Tree.cmp Tree.mutable j d k = .error ↔ ¬ ∃ v, Holds Same h.reverse k v)) ∧
      (∀ k, K k → (member Tree.cmp k d = true ↔ ∃ v, Holds Same h.reverse k v)) ∧
      (Tree.list .dict d).len = (entries d).length ∧
      (entries d).Pairwise (fun a b => ¬ Same a.1 b.1) ∧
      (∀ e ∈ entries d, Holds Same h.reverse e.1 e.2) := by
  have O := ordTree K (fun k hk => (hK k hk).1) hc
  have hE : ∀ a b, K a → K b → (a.cmp b = 0 ↔ Same a b) := fun a b ha hb => by
    rw [cmp_zero_ok, okCmp_same a b (hK a ha).1 (hK b hb).1]
  obtain ⟨ps, h1, R⟩ := (Repr.init O hE).run O hE Tree.mutable junk h (fun op ho => ⟨hh op ho, (hK _ (hh op ho)).2⟩)
  rw [List.append_nil] at R
  have hKps := R.sorted.key
  have hget : ∀ k, K k → ∀ v, get Tree.cmp Tree.mutable j (flat ps) k = .ok v ↔ Holds Same h.reverse k v := by
    intro k hk v
    rw [← R.holds k hk v]
    rcases get_spec O Tree.mutable j ps k R.sorted hk with ⟨k', v', hm, hcmp, hg⟩ | ⟨hne, hg⟩
    · rw [hg]
      constructor
      · intro he; cases he; exact ⟨k', hm, hcmp⟩
      · rintro ⟨k2, hm2, hcmp2⟩
        rw [(sorted_unique O ps R.sorted k hk k' v' k2 v hm hm2 hcmp hcmp2).2]
    · rw [hg]
      constructor
      · intro he; cases he
      · rintro ⟨k2, hm2, hcmp2⟩; exact absurd hcmp2 (hne _ hm2)
  refine ⟨flat ps, h1, hget, ?_, ?_, ?_, ?_, ?_⟩
  · intro k hk
    rcases get_spec O Tree.mutable j ps k R.sorted hk with ⟨k', v', hm, hcmp, hg⟩ | ⟨hne, hg⟩
    · constructor
      · intro he; rw [hg] at he; cases he
      · intro hn; exact absurd ⟨v', (hget k hk v').1 hg⟩ hn
    · constructor
      · rintro - ⟨v, hv⟩
        have := (hget k hk v).2 hv
        rw [hg] at this; cases this
      · intro _; exact hg
  · intro k hk
    rw [member_flat]
    constructor
    · rintro ⟨q, hq, hcq⟩; exact ⟨q.2, (R.holds k hk q.2).1 ⟨q.1, hq, hcq⟩⟩
    · rintro ⟨v, hv⟩; obtain ⟨k', hm, hc'⟩ := (R.holds k hk v).2 hv; exact ⟨_, hm, hc'⟩
  · rw [entries_flat]; simp only [Tree.len, flat_length]; omega
  · rw [entries_flat, List.pairwise_iff_getElem]
    intro a b ha hb hab
    have hl := R.sorted.lt a b hab hb
    rw [← hE _ _ (hKps _ (List.getElem_mem _)) (hKps _ (List.getElem_mem _))]
    omega
  · rw [entries_flat]
    intro e he
    exact (R.holds e.1 (hKps e he) e.2).1 ⟨e.1, he, O.refl _ (hKps e he)⟩

/-- A dictionary literal is the stores of its pairs, in source order (so the last of two equal keys wins). -/
theorem C06_literal (ps : List (Tree × Tree)) (j : Tree) (d d' : List Tree) :
    imm Tree.cmp Tree.mutable j ps d = .ok d' ↔
      run Tree.cmp Tree.mutable (fun _ => j) (ps.map fun p => .store p.1 p.2) d = some d' := by
  induction ps generalizing d with
  | nil => simp [imm, run]
  | cons p ps ih =>
    simp only [imm, List.map_cons, run, step]
    cases store Tree.cmp Tree.mutable j d p.1 p.2 <;> simp [ih]

/-- All scalars (numbers in stored form, NaN included, strings, functions, None) can be used together as keys. -/
theorem C06_scalar_keys : (∀ k, Scalar k → Stored k ∧ k.mutable = false) ∧ (∀ a b, Scalar a → Scalar b → ¬ PrefixClash a b) := by
  refine ⟨fun k hk => ⟨scalar_stored hk, ?_⟩, ?_⟩
  · cases k <;> simp_all [Scalar, Tree.mutable]
  · intro a b ha hb
    cases a <;> cases b <;> simp_all [Scalar, PrefixClash]

/-- Tuple keys one of which is a proper prefix of the other break the map: after `d[(1,2)] = 3; d[(1,)] = 4` the entry for
`(1,2)` is not found although it is in the dictionary. -/
theorem C06_violated_tuple_prefix :
    let one : Tree := .num 0x3f800000#32
    let two : Tree := .num 0x40000000#32
    let k12 : Tree := .list .tuple [one, two]
    let k1 : Tree := .list .tuple [one]
    ∃ d, run Tree.cmp Tree.mutable (fun _ => .none) [.store k12 one, .store k1 two] [] = some d ∧
      k12 ∈ (entries d).map (·.1) ∧
      (match get Tree.cmp Tree.mutable .none d k12 with | .error => True | _ => False) := by
  refine ⟨[.list .tuple [.num 0x3f800000#32], .num 0x40000000#32, .list .tuple [.num 0x3f800000#32, .num 0x40000000#32], .num 0x3f800000#32], ?_, ?_, ?_⟩
  · have c0 : (Tree.list .tuple [.num 0x3f800000#32, .num 0x40000000#32]).cmp (.list .tuple [.num 0x3f800000#32]) = 1 := by decide
    have c1 : (Tree.list .tuple [.num 0x3f800000#32]).cmp (.list .tuple [.num 0x3f800000#32, .num 0x40000000#32]) = 1 := by decide
    have s0 : ∀ d p, search Tree.cmp d p 0 0 = some 0 := by intro d p; rw [search]; simp
    have s1 : search Tree.cmp [.list .tuple [.num 0x3f800000#32, .num 0x40000000#32], .num 0x3f800000#32] (.list .tuple [.num 0x3f800000#32]) 0 2 = some 0 := by
      rw [search]; simp [c0, s0]
    simp [run, step, store, ref, s0, s1, Dict.insert, Tree.mutable, anyMutable, LType.readonly, c1]
  · simp [entries]
  · have c1 : (Tree.list .tuple [.num 0x3f800000#32]).cmp (.list .tuple [.num 0x3f800000#32, .num 0x40000000#32]) = 1 := by decide
    have c2 : (Tree.list .tuple [.num 0x3f800000#32, .num 0x40000000#32]).cmp (.list .tuple [.num 0x3f800000#32]) = 1 := by decide
    have c3 : (Tree.list .tuple [.num 0x3f800000#32, .num 0x40000000#32]).cmp (.list .tuple [.num 0x3f800000#32, .num 0x40000000#32]) = 0 := by decide
    have s0 : ∀ d p, search Tree.cmp d p 0 0 = some 0 := by intro d p; rw [search]; simp
    have s1 : search Tree.cmp [.list .tuple [.num 0x3f800000#32], .num 0x40000000#32, .list .tuple [.num 0x3f800000#32, .num 0x40000000#32], .num 0x3f800000#32]
        (.list .tuple [.num 0x3f800000#32, .num 0x40000000#32]) 0 4 = some 0 := by
      rw [search]; simp only [show (0:Nat) < 4 by omega, dite_true]
      simp only [show (0 + 4) / 2 / 2 * 2 = 2 by rfl, List.getElem?_cons_succ, List.getElem?_cons_zero, c3]
      simp only [show ¬ ((0 : Int) < 0) by omega, if_false]
      rw [search]; simp [c1, s0]
    simp [Dict.get, ref, s1, c2]

/-! Hypotheses are met by a non-trivial history over scalars. -/
example : ∃ d, run Tree.cmp Tree.mutable (fun _ => .none)
    [.store (.str [97]) (.num 0#32), .store (.num 0#32) (.str [98]), .del (.str [97]), .store (.num 0x80000000#32) (.str [99])] [] = some d :=
  let ⟨d, h, _⟩ := C06_map_partial Scalar C06_scalar_keys.1 C06_scalar_keys.2 (fun _ => .none) .none
    [.store (.str [97]) (.num 0#32), .store (.num 0#32) (.str [98]), .del (.str [97]), .store (.num 0x80000000#32) (.str [99])]
    (by
      have hn : Scalar (.num 0#32) := by intro h; revert h; decide
      have hz : Scalar (.num 0x80000000#32) := by intro h; revert h; decide
      have hs : Scalar (.str [97]) := trivial
      intro op hop
      simp only [List.mem_cons, List.not_mem_nil, or_false] at hop
      rcases hop with rfl | rfl | rfl | rfl <;> assumption)
  ⟨d, h⟩

end Snek
