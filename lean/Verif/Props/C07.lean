import Verif.Proofs.Dict
/-!
# C07 Dictionaries are canonical
-/
namespace Snek
open Spec Dict

/-- Two sorted arrays of entries that hold the same are the same up to equal keys. -/
theorem canonical_of {α : Type} {K : α → Prop} {cmp : α → α → Int} (O : OrdOn K cmp) (ps qs : List (α × α))
    (hp : Sorted K cmp ps) (hq : Sorted K cmp qs)
    (h : ∀ k, K k → ∀ v, (∃ k', (k', v) ∈ ps ∧ cmp k k' = 0) ↔ (∃ k', (k', v) ∈ qs ∧ cmp k k' = 0)) :
    ps.map (·.2) = qs.map (·.2) ∧ ∀ (n : Nat) (p q : α × α), ps[n]? = some p → qs[n]? = some q → cmp p.1 q.1 = 0 := by
  induction ps generalizing qs with
  | nil =>
    cases qs with
    | nil => simp
    | cons q qs =>
      have hk := hq.1
      obtain ⟨k', hm, _⟩ := (h q.1 hk q.2).2 ⟨q.1, List.mem_cons_self, O.refl _ hk⟩
      cases hm
  | cons p ps ih =>
    have hk := hp.1
    have hKp := hp.key
    have hKq := hq.key
    cases qs with
    | nil =>
      obtain ⟨k', hm, _⟩ := (h p.1 hk p.2).1 ⟨p.1, List.mem_cons_self, O.refl _ hk⟩
      cases hm
    | cons q qs =>
      have hk2 := hq.1
      obtain ⟨k', hm, hc⟩ := (h p.1 hk p.2).1 ⟨p.1, List.mem_cons_self, O.refl _ hk⟩
      obtain ⟨k'', hm', hc'⟩ := (h q.1 hk2 q.2).2 ⟨q.1, List.mem_cons_self, O.refl _ hk2⟩
      have hkk' := hKq _ hm
      have hkk'' := hKp _ hm'
      have head : cmp p.1 q.1 = 0 ∧ p.2 = q.2 := by
        rcases List.mem_cons.1 hm with e | e
        · have e1 := congrArg Prod.fst e; have e2 := congrArg Prod.snd e
          simp only at e1 e2
          subst e1; exact ⟨hc, e2⟩
        · exfalso
          have hl := hq.2.1 _ e
          simp only at hl hkk' hkk''
          have t := O.tri q.1 k' p.1 hk2 hkk' hk
          have e1 := O.eqs p.1 k' hk hkk'
          have e2 := O.eqs q.1 k'' hk2 hkk''
          have := t.le; have := t.eq
          rcases List.mem_cons.1 hm' with e' | e'
          · have e3 := congrArg Prod.fst e'
            simp only at e3; subst e3
            omega
          · have hl' := hp.2.1 _ e'
            simp only at hl'
            have t2 := O.tri q.1 p.1 k'' hk2 hk hkk''
            have := t2.le; have := t2.eq
            omega
      have tails : ∀ k, K k → ∀ v, (∃ k', (k', v) ∈ ps ∧ cmp k k' = 0) ↔ (∃ k', (k', v) ∈ qs ∧ cmp k k' = 0) := by
        intro k hkk v
        have notEq : ∀ (x : α × α) (xs : List (α × α)), Sorted K cmp (x :: xs) → (∃ k', (k', v) ∈ xs ∧ cmp k k' = 0) → cmp k x.1 ≠ 0 := by
          rintro x xs hs ⟨k', hmem, he⟩ hx
          have hl := hs.2.1 _ hmem
          have hk' := hs.key _ (List.mem_cons_of_mem _ hmem)
          have t := O.tri k x.1 k' hkk hs.1 hk'
          have := t.eq
          simp only at *; omega
        constructor
        · intro hex
          have hne := notEq p ps hp hex
          obtain ⟨k', hmem, he⟩ := hex
          obtain ⟨k2, hmem2, he2⟩ := (h k hkk v).1 ⟨k', List.mem_cons_of_mem _ hmem, he⟩
          refine ⟨k2, ?_, he2⟩
          rcases List.mem_cons.1 hmem2 with e | e
          · exfalso; apply hne
            have e1 := congrArg Prod.fst e; simp only at e1; subst e1
            have t1 := O.tri k q.1 p.1 hkk hk2 hk
            have t2 := O.tri p.1 q.1 k hk hk2 hkk
            have := t1.le; have := t2.le
            have := O.eqs k q.1 hkk hk2; have := O.eqs p.1 q.1 hk hk2
            have := O.anti k p.1 hkk hk; have := O.anti p.1 k hk hkk
            have := head.1; omega
          · exact e
        · intro hex
          have hne := notEq q qs hq hex
          obtain ⟨k', hmem, he⟩ := hex
          obtain ⟨k2, hmem2, he2⟩ := (h k hkk v).2 ⟨k', List.mem_cons_of_mem _ hmem, he⟩
          refine ⟨k2, ?_, he2⟩
          rcases List.mem_cons.1 hmem2 with e | e
          · exfalso; apply hne
            have e1 := congrArg Prod.fst e; simp only at e1; subst e1
            have t1 := O.tri k p.1 q.1 hkk hk hk2
            have t2 := O.tri q.1 p.1 k hk2 hk hkk
            have := t1.le; have := t2.le
            have := O.eqs k p.1 hkk hk; have := O.eqs p.1 q.1 hk hk2
            have := O.anti k q.1 hkk hk2; have := O.anti q.1 k hk2 hkk
            have := head.1; omega
          · exact e
      obtain ⟨i1, i2⟩ := ih qs hp.2.2 hq.2.2 tails
      refine ⟨by simp only [List.map_cons, head.2, i1], fun n a b ha hb => ?_⟩
      cases n with
      | zero => simp only [List.getElem?_cons_zero, Option.some.injEq] at ha hb; subst ha; subst hb; exact head.1
      | succ n => exact i2 n a b ha hb

private theorem canonical {K : Tree → Prop} (hK : ∀ k, K k → Stored k) (O : OrdOn K Tree.cmp) (ps qs : List (Tree × Tree))
    (hp : Sorted K Tree.cmp ps) (hq : Sorted K Tree.cmp qs)
    (h : ∀ k, K k → ∀ v, (∃ k', (k', v) ∈ ps ∧ k.cmp k' = 0) ↔ (∃ k', (k', v) ∈ qs ∧ k.cmp k' = 0)) :
    SameList (ps.map (·.1)) (qs.map (·.1)) ∧ ps.map (·.2) = qs.map (·.2) := by
  obtain ⟨c1, c2⟩ := canonical_of O ps qs hp hq h
  refine ⟨?_, c1⟩
  have hkp := hp.key
  have hkq := hq.key
  clear h hp hq
  induction ps generalizing qs with
  | nil => cases qs with | nil => simp [SameList] | cons _ _ => simp at c1
  | cons p ps ih =>
    cases qs with
    | nil => simp at c1
    | cons q qs =>
      simp only [List.map_cons, List.cons.injEq] at c1
      simp only [List.map_cons, SameList]
      exact ⟨(okCmp_same _ _ (hK _ (hkp p List.mem_cons_self)) (hK _ (hkq q List.mem_cons_self))).1 ((cmp_zero_ok _ _).1 (c2 0 p q rfl rfl)),
        ih qs c1.2 (fun n a b ha hb => c2 (n + 1) a b ha hb) (fun x hx => hkp x (List.mem_cons_of_mem _ hx)) (fun x hx => hkq x (List.mem_cons_of_mem _ hx))⟩

/-- Two histories that describe the same map leave dictionaries with equal keys and identical values in the same order. (Equal
keys: `0.0` and `-0.0` are equal keys with different words; the key kept is the one stored first.) -/
theorem C07_canonical_partial (K : Tree → Prop) (hK : ∀ k, K k → Stored k ∧ k.mutable = false) (hc : ∀ a b, K a → K b → ¬ PrefixClash a b)
    (junk junk' : Nat → Tree) (h h' : List (DictOp Tree)) (hh : ∀ op ∈ h, K op.key) (hh' : ∀ op ∈ h', K op.key)
    (heq : ∀ k, K k → ∀ v, Holds Same h.reverse k v ↔ Holds Same h'.reverse k v) :
    ∃ d d', run Tree.cmp Tree.mutable junk h [] = some d ∧ run Tree.cmp Tree.mutable junk' h' [] = some d' ∧
      SameList ((entries d).map (·.1)) ((entries d').map (·.1)) ∧ (entries d).map (·.2) = (entries d').map (·.2) ∧
      ((∀ a b, K a → K b → Same a b → a = b) → d = d') := by
  have O := ordTree K (fun k hk => (hK k hk).1) hc
  have hE : ∀ a b, K a → K b → (a.cmp b = 0 ↔ Same a b) := fun a b ha hb => by
    rw [cmp_zero_ok, okCmp_same a b (hK a ha).1 (hK b hb).1]
  obtain ⟨ps, h1, R⟩ := (Repr.init O hE).run O hE Tree.mutable junk h (fun op ho => ⟨hh op ho, (hK _ (hh op ho)).2⟩)
  obtain ⟨qs, h2, R'⟩ := (Repr.init O hE).run O hE Tree.mutable junk' h' (fun op ho => ⟨hh' op ho, (hK _ (hh' op ho)).2⟩)
  rw [List.append_nil] at R R'
  obtain ⟨c1, c2⟩ := canonical (fun k hk => (hK k hk).1) O ps qs R.sorted R'.sorted
    (fun k hk v => by rw [R.holds k hk v, R'.holds k hk v]; exact heq k hk v)
  refine ⟨flat ps, flat qs, h1, h2, by rw [entries_flat, entries_flat]; exact c1, by rw [entries_flat, entries_flat]; exact c2, ?_⟩
  intro hinj
  have hkp := R.sorted.key
  have hkq := R'.sorted.key
  have : ∀ (ps qs : List (Tree × Tree)), (∀ q ∈ ps, K q.1) → (∀ q ∈ qs, K q.1) →
      SameList (ps.map (·.1)) (qs.map (·.1)) → ps.map (·.2) = qs.map (·.2) → ps = qs := by
    intro ps
    induction ps with
    | nil => intro qs _ _ _ h; cases qs with | nil => rfl | cons _ _ => simp at h
    | cons p ps ih =>
      intro qs h1 h2 h3 h4
      cases qs with
      | nil => simp at h4
      | cons q qs =>
        simp only [List.map_cons, SameList, List.cons.injEq] at h3 h4
        have e1 := hinj p.1 q.1 (h1 p List.mem_cons_self) (h2 q List.mem_cons_self) h3.1
        have e2 := ih qs (fun x hx => h1 x (List.mem_cons_of_mem _ hx)) (fun x hx => h2 x (List.mem_cons_of_mem _ hx)) h3.2 h4.2
        rw [e2, Prod.ext e1 h4.1]
  rw [this ps qs hkp hkq c1 c2]

/-! Hypotheses are met: string keys, two orders of insertion with an overwritten value. -/
private def isStr : Tree → Prop | .str _ => True | _ => False
example : (∀ k, isStr k → Stored k ∧ k.mutable = false) ∧ (∀ a b, isStr a → isStr b → ¬ PrefixClash a b) ∧
    (∀ a b, isStr a → isStr b → Same a b → a = b) := by
  refine ⟨?_, ?_, ?_⟩
  · intro k hk; cases k <;> simp_all [isStr, Stored, Tree.mutable]
  · intro a b ha hb; cases a <;> cases b <;> simp_all [isStr, PrefixClash]
  · intro a b ha hb; cases a <;> cases b <;> simp_all [isStr, Same]
example : ∀ k, isStr k → ∀ v, Holds Same [.store (.str [97]) Tree.none, .store (.str [98]) Tree.none] k v ↔
    Holds Same [.store (.str [98]) Tree.none, .store (.str [97]) Tree.none, .store (.str [97]) (.num 0#32)] k v := by
  intro k hk v
  cases k with
  | str s =>
    constructor
    · intro h
      cases h with
      | here _ _ _ _ e =>
        refine Holds.store _ _ _ _ _ ?_ (Holds.here _ _ _ _ e)
        simp only [Same] at e ⊢; subst e; decide
      | store _ _ _ _ _ hn h =>
        cases h with
        | here _ _ _ _ e => exact Holds.here _ _ _ _ e
        | store _ _ _ _ _ _ h => cases h
    · intro h
      cases h with
      | here _ _ _ _ e =>
        refine Holds.store _ _ _ _ _ ?_ (Holds.here _ _ _ _ e)
        simp only [Same] at e ⊢; subst e; decide
      | store _ _ _ _ _ hn h =>
        cases h with
        | here _ _ _ _ e => exact Holds.here _ _ _ _ e
        | store _ _ _ _ _ hn h =>
          cases h with
          | here _ _ _ _ e => exact absurd e hn
          | store _ _ _ _ _ _ h => cases h
  | _ => exact hk.elim

end Snek
