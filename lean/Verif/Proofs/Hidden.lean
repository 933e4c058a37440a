import Verif.Spec.Loop
import Verif.Proofs.Frame
import Verif.Proofs.Number
/-!
# Programs do not disturb the state of enclosing loops
-/
namespace Snek.Lang
open Store (Val)
open Snek.Vm Spec

variable {σ : Type} {W : Nat}

/-- Invariant of scopes. -/
def Inv (W : Nat) (sc : Scope Val) : Prop :=
  (∀ y v, sc.glob y = some v → Val.isGlobal v = false) ∧
  (∀ f fs, sc.locs = f :: fs → ∀ y, Hidden W y → f y ≠ .declaredGlobal)

/-- The names in `K` are as they were; inside a function so are all hidden globals. -/
structure Same (W : Nat) (K : Nat → Prop) (sc sc' : Scope Val) : Prop where
  len : sc'.locs.length = sc.locs.length
  glob : ∀ y, Hidden W y → (sc.locs ≠ [] ∨ K y) → sc'.glob y = sc.glob y
  loc : ∀ f fs f' fs', sc.locs = f :: fs → sc'.locs = f' :: fs' → ∀ y, K y → f' y = f y

theorem Same.refl {K} (sc : Scope Val) : Same W K sc sc := by
  refine ⟨rfl, fun _ _ _ => rfl, ?_⟩
  intro f fs f' fs' h h' y _
  rw [h] at h'
  simp only [List.cons.injEq] at h'
  rw [h'.1]

theorem Same.trans {K} {a b c : Scope Val} (h1 : Same W K a b) (h2 : Same W K b c) : Same W K a c := by
  refine ⟨h2.len.trans h1.len, fun y hy hk => ?_, ?_⟩
  · rw [h2.glob y hy, h1.glob y hy hk]
    rcases hk with hk | hk
    · left
      intro hb
      have := h1.len
      rw [hb] at this
      exact hk (List.length_eq_zero_iff.1 this.symm)
    · exact .inr hk
  · intro f fs f' fs' h h' y hy
    cases hb : b.locs with
    | nil => have := h1.len; rw [hb, h] at this; simp at this
    | cons g gs => rw [h2.loc _ _ _ _ hb h' y hy, h1.loc _ _ _ _ h hb y hy]

theorem Same.mono {K K' : Nat → Prop} {a b : Scope Val} (h : Same W K a b) (hk : ∀ y, K' y → K y) : Same W K' a b :=
  ⟨h.len, fun y hy h' => h.glob y hy (h'.imp id (hk y)), fun f fs f' fs' e e' y hy => h.loc f fs f' fs' e e' y (hk y hy)⟩

theorem assign_same {K : Nat → Prop} {sc : Scope Val} (hi : Inv W sc) {x : Nat} {v : Val} (hv : Val.isGlobal v = false) (hx : ¬ K x) :
    Inv W (sc.step (.assign x v)) ∧ Same W K sc (sc.step (.assign x v)) := by
  obtain ⟨g, locs⟩ := sc
  have hg : ∀ y u, upd g x (some v) y = some u → Val.isGlobal u = false := by
    intro y u h
    unfold upd at h
    split at h
    · cases h; exact hv
    · exact hi.1 y u h
  cases locs with
  | nil =>
    refine ⟨⟨hg, fun f fs h => by simp [Scope.step] at h⟩, rfl, fun y hy hk => ?_, fun f fs f' fs' h => by simp at h⟩
    have : y ≠ x := by rintro rfl; rcases hk with hk | hk; (exact hk rfl); exact hx hk
    simp [Scope.step, upd, this]
  | cons f fs =>
    have hl : ∀ a, (∀ y, Hidden W y → a ≠ LocalName.declaredGlobal ∨ y ≠ x) →
        Inv W ⟨g, upd f x a :: fs⟩ ∧ Same W K ⟨g, f :: fs⟩ ⟨g, upd f x a :: fs⟩ := by
      intro a ha
      refine ⟨⟨hi.1, ?_⟩, rfl, fun _ _ _ => rfl, ?_⟩
      · intro f' fs' h y hy
        simp only [List.cons.injEq] at h
        rw [← h.1]
        unfold upd
        split
        · rename_i e; rcases ha y hy with h | h; (exact h); exact absurd e h
        · exact hi.2 _ _ rfl y hy
      · intro f1 fs1 f2 fs2 h1 h2 y hy
        simp only [List.cons.injEq] at h1 h2
        rw [← h1.1, ← h2.1]
        have : y ≠ x := by rintro rfl; exact hx hy
        simp [upd, this]
    simp only [Scope.step]
    cases hf : f x with
    | declaredGlobal =>
      simp only []
      refine ⟨⟨hg, hi.2⟩, rfl, fun y hy _ => ?_, ?_⟩
      · have : y ≠ x := by rintro rfl; exact hi.2 _ _ rfl y hy hf
        simp [upd, this]
      · intro f1 fs1 f2 fs2 h1 h2 y _
        simp only [List.cons.injEq] at h1 h2
        rw [← h1.1, ← h2.1]
    | absent => exact hl _ fun _ _ => .inl (by simp)
    | value u => exact hl _ fun _ _ => .inl (by simp)

theorem declare_same {K : Nat → Prop} {sc : Scope Val} (hi : Inv W sc) {x : Nat} (hx : ¬ Hidden W x) (hK : ∀ y, K y → Hidden W y) :
    Inv W (sc.step (.declareGlobal x)) ∧ Same W K sc (sc.step (.declareGlobal x)) := by
  obtain ⟨g, locs⟩ := sc
  cases locs with
  | nil => exact ⟨hi, Same.refl _⟩
  | cons f fs =>
    refine ⟨⟨hi.1, ?_⟩, rfl, fun _ _ _ => rfl, ?_⟩
    · intro f' fs' h y hy
      simp only [Scope.step, List.cons.injEq] at h
      rw [← h.1]
      have : y ≠ x := by rintro rfl; exact hx hy
      simp only [upd, if_neg this]
      exact hi.2 _ _ rfl y hy
    · intro f1 fs1 f2 fs2 h1 h2 y hy
      simp only [Scope.step, List.cons.injEq] at h1 h2
      rw [← h1.1, ← h2.1]
      have : y ≠ x := by rintro rfl; exact hx (hK _ hy)
      simp [upd, this]

/-! ## Frames -/

theorem variableLookup_state {γ : Type} (fr : Frames Val γ) (g : Bool) (x : Nat) : (variableLookup fr g x false false).2 = fr := by
  unfold variableLookup
  cases pickFrame fr g with
  | none => rfl
  | some vars => simp only []; cases varIndex vars x <;> rfl

theorem frameLookup_state {γ : Type} (fr : Frames Val γ) (x : Nat) : (frameLookup fr x false false false).2 = fr := by
  unfold frameLookup
  have h := variableLookup_state fr false x
  rcases hv : variableLookup fr false x false false with ⟨_ | l, fr'⟩
  · rw [hv] at h; simp only at h; subst h
    exact variableLookup_state _ _ _
  · rw [hv] at h; simp only at h; subst h
    simp only []
    split
    · exact variableLookup_state _ _ _
    · rfl

theorem loadId_abs {γ : Type} (fr : Frames Val γ) (x : Nat) : loadId fr x = fr.abs.read x := by
  rw [← idRead_abs]
  unfold loadId idRead idRef
  have h2 := frameLookup_state fr x
  rcases h : frameLookup fr x false false false with ⟨_ | l, fr'⟩
  · rfl
  · rw [h] at h2; simp only at h2; subst h2; rfl

/-- Writing through the location a lookup found. -/
theorem set_abs {γ : Type} (fr : Frames Val γ) (x : Nat) (v : Val) (hv : Val.isGlobal v = false) (l : VLoc)
    (h : (frameLookup fr x false false false).1 = some l) :
    (∃ f fs u, fr.abs.locs = f :: fs ∧ f x = .value u ∧ (fr.set l v).abs = fr.abs.step (.assign x v)) ∨
    ((∀ f fs, fr.abs.locs = f :: fs → ∀ u, f x ≠ .value u) ∧
      (fr.set l v).abs = { fr.abs with glob := upd fr.abs.glob x (some v) }) := by
  obtain ⟨g, frs⟩ := fr
  have glob : ∀ frs : List (Frame Val γ), (variableLookup (⟨g, frs⟩ : Frames Val γ) true x false false).1 = some l →
      (Frames.set (⟨g, frs⟩ : Frames Val γ) l v).abs = { (Frames.abs ⟨g, frs⟩) with glob := upd (look g) x (some v) } := by
    intro frs h
    unfold variableLookup pickFrame at h
    simp only [if_true] at h
    cases hg : varIndex g x with
    | none => rw [hg] at h; simp at h
    | some i =>
      rw [hg] at h
      simp only [mkLoc, if_true, Option.some.injEq] at h
      subst h
      simp [Frames.set, Frames.abs, look_set v hg]
  unfold frameLookup at h
  cases frs with
  | nil =>
    have e : variableLookup (⟨g, []⟩ : Frames Val γ) false x false false = (none, ⟨g, []⟩) := by
      simp [variableLookup, pickFrame]
    rw [e] at h
    exact .inr ⟨fun f fs h => by simp [Frames.abs] at h, glob _ h⟩
  | cons f fs =>
    cases hl : varIndex f.vars x with
    | none =>
      have e : variableLookup (⟨g, f :: fs⟩ : Frames Val γ) false x false false = (none, ⟨g, f :: fs⟩) := by
        simp [variableLookup, pickFrame, hl]
      rw [e] at h
      refine .inr ⟨fun f' fs' h' u hu => ?_, glob _ h⟩
      simp only [Frames.abs, List.map_cons, List.cons.injEq] at h'
      rw [← h'.1, absLocal, look_none.1 hl] at hu
      simp at hu
    | some i =>
      obtain ⟨w, hw, hid, hlk⟩ := look_some hl
      have e : variableLookup (⟨g, f :: fs⟩ : Frames Val γ) false x false false = (some (.local i), ⟨g, f :: fs⟩) := by
        simp [variableLookup, pickFrame, hl, mkLoc]
      rw [e] at h
      have hget : Frames.get (⟨g, f :: fs⟩ : Frames Val γ) (.local i) = w.value := by simp [Frames.get, hw]
      simp only [hget] at h
      by_cases hg : FrameVal.isGlobal w.value = true
      · rw [if_pos hg] at h
        refine .inr ⟨fun f' fs' h' u hu => ?_, glob _ h⟩
        simp only [Frames.abs, List.map_cons, List.cons.injEq] at h'
        rw [← h'.1, absLocal, hlk] at hu
        simp [hg] at hu
      · rw [if_neg hg] at h
        simp only [Option.some.injEq] at h
        subst h
        have ha : absLocal f.vars x = .value w.value := by simp [absLocal, hlk, hg]
        refine .inl ⟨absLocal f.vars, fs.map (fun f => absLocal f.vars), w.value, rfl, ha, ?_⟩
        have e2 := absLocal_upd (look_set v hl)
        rw [show FrameVal.isGlobal v = false from hv] at e2
        simp only [Frames.abs, Scope.step, List.map_cons, ha, Frames.set, e2]
        rfl

theorem storeId_ok {P : Prim σ} (hP : TamePrim P) {γ : Type} (fr : Frames Val γ) (w : σ) (x : Nat) (v : Val) (hv : Val.isGlobal v = false) :
    ∃ fr', storeId P fr w x v = (true, fr', (P.varAlloc w).2.2) ∧ fr'.abs = fr.abs.step (.assign x v) := by
  have ha := hP.alloc w
  have h := idStore_abs fr x v hv
  refine ⟨_, ?_, h.2⟩
  unfold storeId
  simp only []
  rw [ha.1, ha.2, h.1]
  simp

theorem assignId_ok {P : Prim σ} (hP : TamePrim P) {γ : Type} {a : AOp} {x : Nat} {v r : Val} {fr fr' : Frames Val γ} {w w' : σ}
    (hv : Val.isGlobal v = false) (h : assignId P a x v fr w = (some r, fr', w')) :
    Val.isGlobal r = false ∧ (fr' = fr ∨ ∃ u, Val.isGlobal u = false ∧ fr'.abs = fr.abs.step (.assign x u)) := by
  have hp : ∀ u w, Val.isGlobal u = false → ∃ fr', plainStore P fr x u w = (some u, fr', (P.varAlloc w).2.2) ∧
      fr'.abs = fr.abs.step (.assign x u) := by
    intro u w hu
    obtain ⟨fr', h1, h2⟩ := storeId_ok hP fr w x u hu
    exact ⟨fr', by simp [plainStore, h1], h2⟩
  unfold assignId at h
  cases a with
  | plain =>
    obtain ⟨fr1, h1, h2⟩ := hp v w hv
    simp only [h1, Prod.mk.injEq, Option.some.injEq] at h
    obtain ⟨rfl, rfl, -⟩ := h
    exact ⟨hv, .inr ⟨v, hv, h2⟩⟩
  | named =>
    simp only [] at h
    split at h
    · simp only [Prod.mk.injEq, Option.some.injEq] at h
      obtain ⟨rfl, rfl, -⟩ := h
      exact ⟨hv, .inl rfl⟩
    · obtain ⟨fr1, h1, h2⟩ := hp v w hv
      simp only [h1, Prod.mk.injEq, Option.some.injEq] at h
      obtain ⟨rfl, rfl, -⟩ := h
      exact ⟨hv, .inr ⟨v, hv, h2⟩⟩
  | aug op =>
    simp only [] at h
    split at h
    · simp at h
    · split at h
      · simp at h
      · rename_i old _
        have hu := hP.arith op true old v w
        obtain ⟨fr1, h1, h2⟩ := hp (P.arith op true old v w).1 (P.arith op true old v w).2.2 hu
        rw [h1] at h
        simp only [Prod.mk.injEq] at h
        split at h
        · simp at h
        · obtain ⟨h3, rfl, -⟩ := h
          simp only [Option.some.injEq] at h3
          exact ⟨h3 ▸ hu, .inr ⟨_, hu, h2⟩⟩

/-! ## Values bound by a call -/

theorem bindNamed_vals {f : FuncSig} {npos : Nat} : ∀ (l : List (Nat × Val)) (vars vars' : List (Var Val)),
    bindNamed f npos l vars = .ok vars' → (∀ q ∈ l, Val.isGlobal q.2 = false) → (∀ v ∈ vars, Val.isGlobal v.value = false) →
    ∀ v ∈ vars', Val.isGlobal v.value = false := by
  intro l
  induction l with
  | nil => intro vars vars' h _ hv; simp [bindNamed] at h; subst h; exact hv
  | cons q l ih =>
    intro vars vars' h hl hv
    rcases q with ⟨id, u⟩
    simp only [bindNamed] at h
    split at h
    · simp at h
    · unfold funcActual at h
      split at h
      · simp at h
      · rename_i vs hh
        split at hh
        · simp at hh
        · simp only [Option.some.injEq] at hh
          subst hh
          refine ih _ _ h (fun q hq => hl q (by simp [hq])) ?_
          intro z hz
          rcases List.mem_or_eq_of_mem_set hz with hz | rfl
          · exact hv z hz
          · exact hl (id, u) (by simp)

theorem bindPos_vals {f : FuncSig} : ∀ (l : List Val) (vars vars' : List (Var Val)),
    bindPos f l vars = .ok vars' → (∀ q ∈ l, Val.isGlobal q = false) → (∀ v ∈ vars, Val.isGlobal v.value = false) →
    ∀ v ∈ vars', Val.isGlobal v.value = false := by
  intro l
  induction l with
  | nil => intro vars vars' h _ hv; simp [bindPos] at h; subst h; exact hv
  | cons u l ih =>
    intro vars vars' h hl hv
    simp only [bindPos] at h
    unfold funcActual at h
    split at h
    · simp at h
    · rename_i vs hh
      split at hh
      · simp at hh
      · simp only [Option.some.injEq] at hh
        subst hh
        refine ih _ _ h (fun q hq => hl q (by simp [hq])) ?_
        intro z hz
        rcases List.mem_or_eq_of_mem_set hz with hz | rfl
        · exact hv z hz
        · exact hl u (by simp)

theorem funcBind_vals {f : FuncSig} {b : Nat → Nat} {pos : List Val} {named : List (Nat × Val)} {vars : List (Var Val)}
    (h : funcBind f b pos named = .ok vars) (hp : ∀ v ∈ pos, Val.isGlobal v = false) (hn : ∀ q ∈ named, Val.isGlobal q.2 = false) :
    ∀ v ∈ vars, Val.isGlobal v.value = false := by
  unfold funcBind at h
  simp only [] at h
  split at h
  · simp at h
  · split at h
    · simp at h
    · rename_i v1 h1
      split at h
      · simp at h
      · rename_i v2 h2
        split at h
        · simp at h
        · simp only [BindR.ok.injEq] at h
          subst h
          refine bindPos_vals _ _ _ h2 (by simpa using hp) (bindNamed_vals _ _ _ h1 (by simpa using hn) ?_)
          intro v hv
          rw [List.eq_of_mem_replicate hv]
          decide

theorem look_mem {α : Type} {vars : List (Var α)} {x : Nat} {v : α} (h : look vars x = some v) : ∃ z ∈ vars, z.value = v ∧ z.id = x := by
  unfold look at h
  cases hf : vars.find? (fun v => decide (v.id = x)) with
  | none => rw [hf] at h; simp at h
  | some z =>
    rw [hf] at h
    simp only [Option.map_some, Option.some.injEq] at h
    exact ⟨z, List.mem_of_find?_eq_some hf, h, by simpa using List.find?_some hf⟩

theorem inv_of_tame {s : St σ} (h : TameSt W s) : Inv W s.fr.abs := by
  refine ⟨fun y v hy => ?_, ?_⟩
  · obtain ⟨z, hz, rfl, -⟩ := look_mem (show look s.fr.globals y = some v from hy)
    exact h.1 z hz
  · intro f fs hf y hy hd
    obtain ⟨g, frs⟩ := s.fr
    cases hfr : s.fr.frames with
    | nil => simp [Frames.abs, hfr] at hf
    | cons f0 fs0 =>
      simp only [Frames.abs, hfr, List.map_cons, List.cons.injEq] at hf
      rw [← hf.1] at hd
      unfold absLocal at hd
      cases hl : look f0.vars y with
      | none => rw [hl] at hd; simp at hd
      | some v =>
        rw [hl] at hd
        obtain ⟨z, hz, rfl, hid⟩ := look_mem hl
        have := h.2 f0 (by simp [hfr]) z hz (by rw [hid]; exact hy)
        simp only [FrameVal.isGlobal, this] at hd
        simp at hd

end Snek.Lang
