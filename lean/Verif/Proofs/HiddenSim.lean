import Verif.Proofs.Hidden
/-!
# Programs do not disturb the state of enclosing loops: the induction
-/
namespace Snek.Lang
open Store (Val)
open Snek.Vm Spec

variable {σ α β : Type}

/-- A property of successful results. -/
def Post (r : R σ α) (Q : α → St σ → Prop) : Prop := ∀ a t, r = .ok a t → Q a t

theorem post_bind {r : R σ α} {k : α → St σ → R σ β} {Q : α → St σ → Prop} {Q' : β → St σ → Prop} (h : Post r Q)
    (hk : ∀ a t, Q a t → Post (k a t) Q') : Post (r.bind k) Q' := by
  cases r with
  | ok a t => exact hk a t (h a t rfl)
  | err => intro a t h; simp [R.bind] at h
  | over => intro a t h; simp [R.bind] at h
  | time => intro a t h; simp [R.bind] at h

theorem post_room {P : Prim σ} {d : Nat} {r : R σ α} {Q : α → St σ → Prop} (h : Post r Q) : Post (needRoom P d r) Q := by
  unfold needRoom; split
  · exact h
  · intro a t h; simp at h

theorem post_ok {a : α} {s : St σ} {Q : α → St σ → Prop} (h : Q a s) : Post (.ok a s) Q := by
  intro a t e; simp only [R.ok.injEq] at e; rw [← e.1, ← e.2]; exact h

theorem post_err {g w} {Q : α → St σ → Prop} : Post (.err g w : R σ α) Q := by intro a t e; simp at e
theorem post_time {Q : α → St σ → Prop} {g w} : Post (.time g w : R σ α) Q := by intro a t e; simp at e

theorem post_ite {c : Prop} [Decidable c] {a b : R σ α} {Q : α → St σ → Prop} (h1 : Post a Q) (h2 : Post b Q) :
    Post (if c then a else b) Q := by
  split
  · exact h1
  · exact h2

theorem post_imp {r : R σ α} {Q Q' : α → St σ → Prop} (h : Post r Q) (hq : ∀ a t, Q a t → Q' a t) : Post r Q' :=
  fun a t e => hq a t (h a t e)

/-- The state after keeps the invariant and the names in `K`. -/
def Good (W : Nat) (K : Nat → Prop) (s t : St σ) : Prop := Inv W t.fr.abs ∧ Same W K s.fr.abs t.fr.abs

theorem Good.refl {W : Nat} {K} {s : St σ} (h : Inv W s.fr.abs) : Good W K s s := ⟨h, Same.refl _⟩
theorem Good.trans {W : Nat} {K} {s t u : St σ} (h1 : Good W K s t) (h2 : Good W K t u) : Good W K s u := ⟨h2.1, h1.2.trans h2.2⟩
theorem Good.mono {W : Nat} {K K' : Nat → Prop} {s t : St σ} (h : Good W K s t) (hk : ∀ y, K' y → K y) : Good W K' s t :=
  ⟨h.1, h.2.mono hk⟩
theorem Good.w {W : Nat} {K} {s t : St σ} {w : σ} (h : Good W K s t) : Good W K s { t with w := w } := h

/-- State of loops outside depth `fd`. -/
def Outer (W fd y : Nat) : Prop := Hidden W y ∧ 2 ^ (8 * W) - 5 < y + 2 * fd

theorem forTmp_eq {W : Nat} (hW : 2 ≤ W) {fd i : Nat} (hfd : fd < 256) (hi : i < 2) :
    forTmp W (UInt8.ofNat fd) i + (2 * fd + i) = 2 ^ (8 * W) - 5 ∧ 2 ^ 16 ≤ 2 ^ (8 * W) := by
  have h : 2 ^ 16 ≤ 2 ^ (8 * W) := Nat.pow_le_pow_right (by decide) (by omega)
  unfold forTmp
  have : (UInt8.ofNat fd).toNat = fd := by simp; omega
  rw [this]
  omega

theorem tmp_hidden {W : Nat} (hW : 2 ≤ W) {fd i : Nat} (hfd : fd < 256) (hi : i < 2) : Hidden W (forTmp W (UInt8.ofNat fd) i) := by
  have := forTmp_eq hW hfd hi
  unfold Hidden; omega

theorem tmp_outer {W : Nat} (hW : 2 ≤ W) {fd i : Nat} (hfd : fd < 256) (hi : i < 2) : Outer W (fd + 1) (forTmp W (UInt8.ofNat fd) i) := by
  have := forTmp_eq hW hfd hi
  exact ⟨tmp_hidden hW hfd hi, by omega⟩

theorem tmp_not_outer {W : Nat} (hW : 2 ≤ W) {fd i : Nat} (hfd : fd < 256) (hi : i < 2) : ¬ Outer W fd (forTmp W (UInt8.ofNat fd) i) := by
  have := forTmp_eq hW hfd hi
  intro h
  have := h.2
  omega

theorem outer_succ {W fd : Nat} (y : Nat) (h : Outer W fd y) : Outer W (fd + 1) y := ⟨h.1, by have := h.2; omega⟩
theorem outer_hidden {W fd : Nat} (y : Nat) (h : Outer W fd y) : Hidden W y := h.1

theorem store_good {P : Prim σ} (hP : TamePrim P) {K : Nat → Prop} {s : St σ} (hi : Inv P.W s.fr.abs) {x : Nat} {v : Val}
    (hv : Val.isGlobal v = false) (hx : ¬ K x) :
    ∃ fr', storeId P s.fr s.w x v = (true, fr', (P.varAlloc s.w).2.2) ∧ fr'.abs = s.fr.abs.step (.assign x v) ∧
      Good P.W K s ⟨fr', (P.varAlloc s.w).2.2⟩ := by
  obtain ⟨fr', h1, h2⟩ := storeId_ok hP s.fr s.w x v hv
  have := assign_same (K := K) hi hv hx
  refine ⟨fr', h1, h2, ?_⟩
  unfold Good
  rw [h2]; exact this

theorem assign_good {P : Prim σ} (hP : TamePrim P) {K : Nat → Prop} {s : St σ} (hi : Inv P.W s.fr.abs) {a : AOp} {x : Nat} {v : Val}
    (hv : Val.isGlobal v = false) (hx : ¬ K x) : Post (s.assign P a x v) (fun r t => Val.isGlobal r = false ∧ Good P.W K s t) := by
  unfold St.assign
  rcases h : assignId P a x v s.fr s.w with ⟨_ | r, fr', w'⟩
  · exact post_err
  · refine post_ok ?_
    obtain ⟨h1, h2⟩ := assignId_ok hP hv h
    refine ⟨h1, ?_⟩
    rcases h2 with rfl | ⟨u, hu, h2⟩
    · exact Good.refl hi
    · unfold Good
      rw [h2]; exact assign_same hi hu hx

theorem prim_good {W : Nat} {K : Nat → Prop} {s : St σ} (hi : Inv W s.fr.abs) {p : Option Val × σ} (h : ∀ v, p.1 = some v → Val.isGlobal v = false) :
    Post (s.prim p) (fun v t => Val.isGlobal v = false ∧ Good W K s t) := by
  rcases p with ⟨_ | v, w⟩
  · exact post_err
  · exact post_ok ⟨h v rfl, Good.refl hi⟩

theorem clean_num (u : BitVec 32) : Val.isGlobal (.num u) = false := beq_false_of_ne (by simp [Val.global])

theorem clean_float (f : BitVec 32) : Val.isGlobal (Val.ofF f) = false := clean_num _

theorem clean_string (o : Nat) : Val.isGlobal (.str o) = false := beq_false_of_ne (by simp [Val.global])

theorem rangeStep_good {P : Prim σ} {K : Nat → Prop} (hK : ∀ y, K y → Hidden P.W y) {s : St σ} (hi : Inv P.W s.fr.abs) {x : Nat}
    (hx : ¬ Hidden P.W x) {dep : UInt8} {l : LoopR} {fr : Frames Val Unit} (h : rangeStep P x dep s.fr = (l, fr)) :
    Good P.W K s ⟨fr, s.w⟩ := by
  unfold rangeStep at h
  split at h
  · rename_i lx ll ls h1 h2 h3
    simp only [] at h
    have hfr : fr = s.fr.set lx (Val.ofF (fadd (getFloat (s.fr.get lx)).1 (getFloat (s.fr.get ls)).1)) := by
      split at h
      · exact (congrArg Prod.snd h).symm
      · split at h <;> split at h <;> exact (congrArg Prod.snd h).symm
    rcases set_abs s.fr x _ (clean_float (fadd (getFloat (s.fr.get lx)).1 (getFloat (s.fr.get ls)).1)) lx h1 with ⟨f, fs, u, _, _, he⟩ | ⟨_, he⟩
    · unfold Good
      rw [hfr, he]
      exact assign_same hi (clean_float _) (fun hk => hx (hK _ hk))
    · unfold Good
      rw [hfr, he]
      refine ⟨⟨?_, hi.2⟩, rfl, fun y hy _ => ?_, ?_⟩
      · intro y v hy
        simp only [upd] at hy
        split at hy
        · cases hy; exact clean_float _
        · exact hi.1 y v hy
      · have : y ≠ x := by rintro rfl; exact hx hy
        simp [upd, this]
      · intro f fs f' fs' e e' y _
        simp only [] at e'
        rw [e] at e'
        simp only [List.cons.injEq] at e'
        rw [e'.1]
  · simp only [Prod.mk.injEq] at h
    rw [← h.2]
    exact Good.refl hi

/-- In a function, the name is bound locally. -/
def LocalVal (sc : Scope Val) (x : Nat) : Prop := ∀ f fs, sc.locs = f :: fs → ∃ v, f x = .value v

theorem LocalVal.same {W : Nat} {K : Nat → Prop} {a b : Scope Val} {x : Nat} (h : LocalVal a x) (hs : Same W K a b) (hx : K x) :
    LocalVal b x := by
  intro f fs hf
  cases ha : a.locs with
  | nil => have := hs.len; rw [ha, hf] at this; simp at this
  | cons g gs => rw [hs.loc _ _ _ _ ha hf x hx]; exact h _ _ ha

theorem inStep_good {P : Prim σ} (hP : TamePrim P) {K : Nat → Prop} (hK : ∀ y, K y → Hidden P.W y) {s : St σ} (hi : Inv P.W s.fr.abs)
    {x : Nat} (hx : ¬ Hidden P.W x) {dep : UInt8} (ht : ¬ K (forTmp P.W dep 1)) (hl : LocalVal s.fr.abs (forTmp P.W dep 1))
    {l : LoopR} {fr : Frames Val Unit} {w : σ}
    (h : inStep P x dep s.fr s.w = (l, fr, w)) (hne : l ≠ .error) :
    Good P.W K s ⟨fr, w⟩ ∧ LocalVal fr.abs (forTmp P.W dep 1) := by
  unfold inStep at h
  split at h
  · rename_i li la h1 h2
    simp only [] at h
    have hc := clean_float (intToF (toSoff P.W (getFloat (s.fr.get li)).1 + 1))
    have key : ∃ t : Frames Val Unit, t = s.fr.set li (Val.ofF (intToF (toSoff P.W (getFloat (s.fr.get li)).1 + 1))) ∧
        t.abs = s.fr.abs.step (.assign (forTmp P.W dep 1) (Val.ofF (intToF (toSoff P.W (getFloat (s.fr.get li)).1 + 1)))) := by
      refine ⟨_, rfl, ?_⟩
      rcases set_abs s.fr _ _ hc li h1 with ⟨f, fs, u, _, _, he⟩ | ⟨hno, he⟩
      · exact he
      · rw [he]
        cases hs : s.fr.abs.locs with
        | nil =>
          have : s.fr.abs = ⟨s.fr.abs.glob, []⟩ := by rw [← hs]
          rw [this]; rfl
        | cons f fs =>
          obtain ⟨v, hv⟩ := hl f fs hs
          exact absurd hv (hno f fs hs v)
    obtain ⟨t, ht1, ht2⟩ := key
    rw [← ht1] at h
    have hg : Good P.W K s ⟨t, s.w⟩ := by
      unfold Good; rw [ht2]; exact assign_same hi hc ht
    have hloc : LocalVal t.abs (forTmp P.W dep 1) := by
      rw [ht2]
      intro f fs hf
      cases hs : s.fr.abs.locs with
      | nil =>
        have := hg.2.len
        simp only [ht2, hf, hs] at this; simp at this
      | cons f0 fs0 =>
        obtain ⟨v, hv⟩ := hl _ _ hs
        simp only [Scope.step, hs, hv, List.cons.injEq] at hf
        rw [← hf.1]
        exact ⟨Val.ofF (intToF (toSoff P.W (getFloat (s.fr.get li)).1 + 1)), by simp [upd]⟩
    split at h
    · simp only [Prod.mk.injEq] at h; exact absurd h.1.symm hne
    · rename_i v w1 hv
      split at h
      · simp only [Prod.mk.injEq] at h; exact absurd h.1.symm hne
      · split at h
        · simp only [Prod.mk.injEq] at h
          obtain ⟨-, rfl, rfl⟩ := h
          exact ⟨hg, hloc⟩
        · have hcv : Val.isGlobal v = false := hP.iter _ _ _ _ (by rw [hv])
          obtain ⟨fr', e1, e2, e3⟩ := store_good hP (K := fun y => K y ∨ y = forTmp P.W dep 1) (s := ⟨t, w1⟩) hg.1 (x := x) hcv
            (by rintro (hk | hk)
                · exact hx (hK _ hk)
                · -- a loop variable is not hidden
                  exact hx (hk ▸ by
                    unfold Hidden forTmp
                    have := dep.toNat_lt
                    have h16 : 2 ^ 16 ≤ 2 ^ (8 * P.W) := Nat.pow_le_pow_right (by decide) (by have := hP.width; omega)
                    omega))
          simp only [] at e1
          rw [e1] at h
          simp only [Prod.mk.injEq] at h
          obtain ⟨-, rfl, rfl⟩ := h
          exact ⟨hg.trans (e3.mono fun y hy => .inl hy), hloc.same e3.2 (.inr rfl)⟩
  · simp only [Prod.mk.injEq] at h; exact absurd h.1.symm hne

theorem rangeStart_good {P : Prim σ} (hP : TamePrim P) {fd : Nat} {s : St σ} (hi : Inv P.W s.fr.abs)
    {x : Nat} (hx : ¬ Hidden P.W x) (hfd : fd < 256) {args : List Val} {fr : Frames Val Unit} {w : σ}
    (h : rangeStart P x (UInt8.ofNat fd) args s.fr s.w = (true, fr, w)) : Good P.W (Outer P.W fd) s ⟨fr, w⟩ := by
  have go : ∀ c l t : BitVec 32, ∃ fr1 fr2 fr3, storeId P s.fr s.w x (Val.ofF (fsub c t)) = (true, fr1, (P.varAlloc s.w).2.2) ∧
      storeId P fr1 (P.varAlloc s.w).2.2 (forTmp P.W (UInt8.ofNat fd) 0) (Val.ofF l) = (true, fr2, (P.varAlloc (P.varAlloc s.w).2.2).2.2) ∧
      storeId P fr2 (P.varAlloc (P.varAlloc s.w).2.2).2.2 (forTmp P.W (UInt8.ofNat fd) 1) (Val.ofF t) =
        (true, fr3, (P.varAlloc (P.varAlloc (P.varAlloc s.w).2.2).2.2).2.2) ∧
      ∀ w, Good P.W (Outer P.W fd) s ⟨fr3, w⟩ := by
    intro c l t
    obtain ⟨fr1, a1, _, a3⟩ := store_good hP (K := Outer P.W fd) hi (x := x) (clean_float (fsub c t)) (fun h => hx h.1)
    obtain ⟨fr2, b1, _, b3⟩ := store_good hP (K := Outer P.W fd) (s := ⟨fr1, (P.varAlloc s.w).2.2⟩) a3.1 (clean_float l)
      (tmp_not_outer hP.width hfd (i := 0) (by decide))
    obtain ⟨fr3, c1, _, c3⟩ := store_good hP (K := Outer P.W fd) (s := ⟨fr2, (P.varAlloc (P.varAlloc s.w).2.2).2.2⟩) b3.1 (clean_float t)
      (tmp_not_outer hP.width hfd (i := 1) (by decide))
    exact ⟨fr1, fr2, fr3, a1, b1, c1, fun w => (a3.trans b3).trans c3⟩
  unfold rangeStart at h
  simp only [] at h
  split at h
  · rename_i a
    obtain ⟨fr1, fr2, fr3, h1, h2, h3, hg⟩ := go 0 (getFloat a).1 (intToF 1)
    simp only [h1, h2, h3, Prod.mk.injEq] at h
    rw [← h.2.1]; exact hg _
  · rename_i a b
    obtain ⟨fr1, fr2, fr3, h1, h2, h3, hg⟩ := go (getFloat a).1 (getFloat b).1 (intToF 1)
    simp only [h1, h2, h3, Prod.mk.injEq] at h
    rw [← h.2.1]; exact hg _
  · rename_i a b t
    split at h
    · simp at h
    · obtain ⟨fr1, fr2, fr3, h1, h2, h3, hg⟩ := go (getFloat a).1 (getFloat b).1 (getFloat t).1
      simp only [h1, h2, h3, Prod.mk.injEq] at h
      rw [← h.2.1]; exact hg _
  · simp at h

theorem loadName_clean {P : Prim σ} (hP : TamePrim P) {s : St σ} (hi : Inv P.W s.fr.abs) {x : Nat} {v : Val}
    (h : loadName P s.fr x = some v) : Val.isGlobal v = false := by
  unfold loadName at h
  rw [loadId_abs] at h
  split at h
  · rename_i u hu
    simp only [Option.some.injEq] at h
    subst h
    unfold Scope.read at hu
    split at hu
    · exact hi.1 _ _ hu
    · rename_i f fs hl
      split at hu
      · rename_i z hz
        simp only [Option.some.injEq] at hu
        subst hu
        cases hfr : s.fr.frames with
        | nil => simp [Frames.abs, hfr] at hl
        | cons f0 fs0 =>
          simp only [Frames.abs, hfr, List.map_cons, List.cons.injEq] at hl
          rw [← hl.1] at hz
          unfold absLocal at hz
          split at hz
          · simp at hz
          · split at hz
            · simp at hz
            · rename_i hg
              simp only [LocalName.value.injEq] at hz
              subst hz
              simpa [FrameVal.isGlobal] using hg
      · exact hi.1 _ _ hu
  · split at h
    · rename_i hm
      simp only [Option.some.injEq] at h
      subst h; exact hP.builtinVal x hm
    · simp at h

/-! ## The induction -/

section
variable (P : Prim σ) (defs : Nat → FunDef)

/-- What is proved for every bound `n`. -/
structure Keeps (n : Nat) : Prop where
  e : ∀ d e s, TameE e → Inv P.W s.fr.abs → Post (evalE P defs n d e s) (fun v t => Val.isGlobal v = false ∧ Good P.W (Hidden P.W) s t)
  chain : ∀ d x r b more s, TameE b → TameC more → Inv P.W s.fr.abs →
    Post (evalChain P defs n d x r b more s) (fun v t => Val.isGlobal v = false ∧ Good P.W (Hidden P.W) s t)
  opt : ∀ d o s, TameO o → Inv P.W s.fr.abs → Post (evalOpt P defs n d o s) (fun _ t => Good P.W (Hidden P.W) s t)
  args : ∀ d es s, TameA es → Inv P.W s.fr.abs →
    Post (evalArgs P defs n d es s) (fun l t => (∀ v ∈ l, Val.isGlobal v = false) ∧ Good P.W (Hidden P.W) s t)
  named : ∀ d es s, TameN es → Inv P.W s.fr.abs →
    Post (evalNamed P defs n d es s) (fun l t => (∀ q ∈ l, Val.isGlobal q.2 = false) ∧ Good P.W (Hidden P.W) s t)
  call : ∀ d fv pos nm s, (∀ v ∈ pos, Val.isGlobal v = false) → (∀ q ∈ nm, Val.isGlobal q.2 = false) → Inv P.W s.fr.abs →
    Post (callV P defs n d fv pos nm s) (fun v t => Val.isGlobal v = false ∧ Good P.W (Hidden P.W) s t)
  defaults : ∀ d ds s, TameD P.W ds → Inv P.W s.fr.abs → Post (evalDefaults P defs n d ds s) (fun _ t => Good P.W (Hidden P.W) s t)
  s : ∀ d fd c s, TameS P.W fd c → Inv P.W s.fr.abs →
    Post (execS P defs n d fd c s) (fun f t => (∀ v, f = .ret v → Val.isGlobal v = false) ∧ Good P.W (Outer P.W fd) s t)
  els : ∀ d fd c s, TameElse P.W fd c → Inv P.W s.fr.abs →
    Post (execElse P defs n d fd c s) (fun f t => (∀ v, f = .ret v → Val.isGlobal v = false) ∧ Good P.W (Outer P.W fd) s t)
  whil : ∀ d fd c b e s, TameE c → TameS P.W fd b → TameS P.W fd e → Inv P.W s.fr.abs →
    Post (execWhile P defs n d fd c b e s) (fun f t => (∀ v, f = .ret v → Val.isGlobal v = false) ∧ Good P.W (Outer P.W fd) s t)
  range : ∀ d fd x b e s, ¬ Hidden P.W x → fd < 256 → TameS P.W (fd + 1) b → TameS P.W fd e → Inv P.W s.fr.abs →
    Post (execRange P defs n d fd x b e s) (fun f t => (∀ v, f = .ret v → Val.isGlobal v = false) ∧ Good P.W (Outer P.W fd) s t)
  inn : ∀ d fd x b e s, ¬ Hidden P.W x → fd < 256 → TameS P.W (fd + 1) b → TameS P.W fd e → Inv P.W s.fr.abs →
    LocalVal s.fr.abs (forTmp P.W (UInt8.ofNat fd) 1) →
    Post (execIn P defs n d fd x b e s) (fun f t => (∀ v, f = .ret v → Val.isGlobal v = false) ∧ Good P.W (Outer P.W fd) s t)

theorem localVal_assign {sc : Scope Val} (hi : Inv P.W sc) {x : Nat} {v : Val} (hx : Hidden P.W x) :
    LocalVal (sc.step (.assign x v)) x := by
  obtain ⟨g, locs⟩ := sc
  cases locs with
  | nil => intro f fs h; simp [Scope.step] at h
  | cons f fs =>
    intro f' fs' h
    have := hi.2 _ _ rfl x hx
    simp only [Scope.step] at h
    cases hf : f x with
    | declaredGlobal => exact absurd hf this
    | absent => simp only [List.cons.injEq] at h; rw [← h.1]; exact ⟨v, by simp [upd]⟩
    | value u => simp only [List.cons.injEq] at h; rw [← h.1]; exact ⟨v, by simp [upd]⟩

theorem keeps (hP : TamePrim P) (hD : TameDefs P.W defs) (n : Nat) : Keeps P defs n := by
  have hd : ∀ (s : St σ) (K : Nat → Prop) (p : Option Val × σ), Inv P.W s.fr.abs → (∀ v, p.1 = some v → Val.isGlobal v = false) →
      Post (s.prim p) (fun v t => Val.isGlobal v = false ∧ Good P.W K s t) := fun s K p h hp => prim_good h hp
  induction n with
  | zero =>
    constructor <;> intros <;>
      simp only [evalE, evalChain, evalOpt, evalArgs, evalNamed, callV, evalDefaults, execS, execElse, execWhile, execRange, execIn] <;>
      exact post_time
  | succ n ih =>
    have tr : ∀ {α : Type} {K : Nat → Prop} {s t : St σ} {r : R σ α} {Q : α → Prop}, Good P.W K s t →
        Post r (fun v u => Q v ∧ Good P.W K t u) → Post r (fun v u => Q v ∧ Good P.W K s u) :=
      fun h h2 => post_imp h2 fun v u hu => ⟨hu.1, h.trans hu.2⟩
    have trS : ∀ {fd : Nat} {s t : St σ} {r : R σ Flow} {Q : Flow → Prop}, Good P.W (Hidden P.W) s t →
        Post r (fun v u => Q v ∧ Good P.W (Outer P.W fd) t u) → Post r (fun v u => Q v ∧ Good P.W (Outer P.W fd) s u) :=
      fun h h2 => post_imp h2 fun v u hu => ⟨hu.1, (h.mono outer_hidden).trans hu.2⟩
    have nor : ∀ {fd : Nat} {s t : St σ} {f : Flow}, Good P.W (Outer P.W fd) s t → (∀ v, f ≠ .ret v) →
        Post (.ok f t : R σ Flow) (fun f t => (∀ v, f = .ret v → Val.isGlobal v = false) ∧ Good P.W (Outer P.W fd) s t) :=
      fun h hf => post_ok ⟨fun v e => absurd e (hf v), h⟩
    have oh : ∀ {fd : Nat} {s t : St σ}, Good P.W (Hidden P.W) s t → Good P.W (Outer P.W fd) s t := fun h => h.mono outer_hidden
    constructor
    · intro d e s ht hi
      cases e with
      | num u => simp only [evalE]; exact post_ok ⟨clean_num _, Good.refl hi⟩
      | str o => simp only [evalE]; exact post_ok ⟨clean_string _, Good.refl hi⟩
      | name x =>
        simp only [evalE]
        split
        · rename_i v hv; exact post_ok ⟨loadName_clean hP hi hv, Good.refl hi⟩
        · exact post_err
      | unary u e =>
        simp only [TameE] at ht
        cases u with
        | not => simp only [evalE]; exact post_bind (ih.e _ _ _ ht hi) fun v t h => post_ok ⟨clean_num _, h.2⟩
        | uminus => simp only [evalE]; exact post_bind (ih.e _ _ _ ht hi) fun v t h => tr h.2 (hd t _ _ h.2.1 (hP.unary _ _ _))
        | lnot => simp only [evalE]; exact post_bind (ih.e _ _ _ ht hi) fun v t h => tr h.2 (hd t _ _ h.2.1 (hP.unary _ _ _))
      | binary op a b =>
        simp only [TameE] at ht
        simp only [evalE]
        refine post_bind (ih.e _ _ _ ht.1 hi) fun v t h => post_room (tr h.2 (post_bind (ih.e _ _ _ ht.2 h.2.1) fun y u h2 => tr h2.2
          (hd u _ _ h2.2.1 fun z hz => ?_)))
        simp only [] at hz
        split at hz
        · simp at hz
        · simp only [Option.some.injEq] at hz; rw [← hz]; exact hP.arith _ _ _ _ _
      | and a b =>
        simp only [TameE] at ht
        simp only [evalE]
        exact post_bind (ih.e _ _ _ ht.1 hi) fun v t h => post_ite (tr h.2 (ih.e _ _ _ ht.2 h.2.1)) (post_ok h)
      | or a b =>
        simp only [TameE] at ht
        simp only [evalE]
        exact post_bind (ih.e _ _ _ ht.1 hi) fun v t h => post_ite (post_ok h) (tr h.2 (ih.e _ _ _ ht.2 h.2.1))
      | cmp a r b more =>
        simp only [TameE] at ht
        simp only [evalE]
        exact post_bind (ih.e _ _ _ ht.1 hi) fun v t h => tr h.2 (ih.chain _ _ _ _ _ _ ht.2.1 ht.2.2 h.2.1)
      | index a i =>
        simp only [TameE] at ht
        simp only [evalE]
        exact post_bind (ih.e _ _ _ ht.1 hi) fun v t h => post_room (tr h.2 (post_bind (ih.e _ _ _ ht.2 h.2.1) fun y u h2 => tr h2.2
          (hd u _ _ h2.2.1 (hP.index _ _ _))))
      | slice a b c t =>
        simp only [TameE] at ht
        simp only [evalE]
        exact post_bind (ih.e _ _ _ ht.1 hi) fun v s1 h => post_room (tr h.2 (post_bind (ih.opt _ _ _ ht.2.1 h.2.1) fun _ s2 h2 => tr h2
          (post_bind (ih.opt _ _ _ ht.2.2.1 h2.1) fun _ s3 h3 => tr h3 (post_bind (ih.opt _ _ _ ht.2.2.2 h3.1) fun _ s4 h4 => tr h4
            (hd s4 _ _ h4.1 (hP.slice _ _ _ _ _))))))
      | call f args named =>
        simp only [TameE] at ht
        simp only [evalE]
        exact post_bind (ih.e _ _ _ ht.1 hi) fun v s1 h => post_room (tr h.2 (post_bind (ih.args _ _ _ ht.2.1 h.2.1) fun _ s2 h2 => tr h2.2
          (post_bind (ih.named _ _ _ ht.2.2 h2.2.1) fun _ s3 h3 => tr h3.2 (ih.call _ _ _ _ _ h2.1 h3.1 h3.2.1))))
      | build k es =>
        simp only [TameE] at ht
        simp only [evalE]
        exact post_bind (ih.args _ _ _ ht hi) fun _ t h => tr h.2 (hd t _ _ h.2.1 (hP.build _ _ _))
    · intro d x r b more s hb hm hi
      rw [evalChain]
      refine post_room (post_bind (ih.e _ _ _ hb hi) fun y t h => tr h.2 (post_bind (hd t (Hidden P.W) _ h.2.1 (hP.rel _ _ _ _)) fun v u h2 => ?_))
      cases more with
      | nil => exact post_ok h2
      | cons r' c more =>
        simp only [TameC] at hm
        exact post_ite (tr h2.2 (ih.chain _ _ _ _ _ _ hm.1 hm.2 h2.2.1)) (post_ok h2)
    · intro d o s ht hi
      cases o with
      | none => simp only [evalOpt]; exact post_ok (Good.refl hi)
      | some e =>
        simp only [TameO] at ht
        simp only [evalOpt]
        exact post_bind (ih.e _ _ _ ht hi) fun v t h => post_room (post_ok h.2)
    · intro d es s ht hi
      cases es with
      | nil => simp only [evalArgs]; exact post_ok ⟨by simp, Good.refl hi⟩
      | cons e es =>
        simp only [TameA] at ht
        simp only [evalArgs]
        refine post_bind (ih.e _ _ _ ht.1 hi) fun v t h => post_room (tr h.2 (post_bind (ih.args _ _ _ ht.2 h.2.1) fun l u h2 => post_ok ⟨?_, h2.2⟩))
        intro z hz
        rcases List.mem_cons.1 hz with rfl | hz
        · exact h.1
        · exact h2.1 z hz
    · intro d es s ht hi
      cases es with
      | nil => simp only [evalNamed]; exact post_ok ⟨by simp, Good.refl hi⟩
      | cons x e es =>
        simp only [TameN] at ht
        simp only [evalNamed]
        refine post_room (post_bind (ih.e _ _ _ ht.1 hi) fun v t h => post_room (tr h.2 (post_bind (ih.named _ _ _ ht.2 h.2.1) fun l u h2 =>
          post_ok ⟨?_, h2.2⟩)))
        intro z hz
        rcases List.mem_cons.1 hz with rfl | hz
        · exact h.1
        · exact h2.1 z hz
    · intro d fv pos nm s hp hn hi
      rw [callV]
      cases fv.type with
      | builtin => exact hd s _ _ hi (hP.callBuiltin _ _ _ _)
      | func =>
        simp only []
        rcases P.frameAlloc s.w with ⟨_ | _, w⟩
        · exact post_err
        · simp only []
          cases hb : funcBind (P.sig fv.ref) (P.beyond w) pos nm with
          | ok vars =>
            have hvals := funcBind_vals hb hp hn
            have hi1 : Inv P.W (Frames.abs (⟨s.fr.globals, [⟨vars, (), 0⟩]⟩ : Frames Val Unit)) := by
              refine ⟨hi.1, ?_⟩
              intro f fs hf y _ hy
              simp only [Frames.abs, List.map_cons, List.cons.injEq] at hf
              rw [← hf.1, absLocal] at hy
              cases hl : look vars y with
              | none => rw [hl] at hy; simp at hy
              | some u =>
                rw [hl] at hy
                obtain ⟨z, hz, rfl, -⟩ := look_mem hl
                have := hvals z hz
                simp only [FrameVal.isGlobal, this] at hy
                simp at hy
            have back : ∀ (t u : St σ) (v : Val), Val.isGlobal v = false →
                Good P.W (Hidden P.W) ⟨⟨s.fr.globals, [⟨vars, (), 0⟩]⟩, w⟩ t → Good P.W (Outer P.W 0) t u →
                Val.isGlobal v = false ∧ Good P.W (Hidden P.W) s ⟨⟨u.fr.globals, s.fr.frames⟩, u.w⟩ := by
              intro t u v hv h1 h2
              refine ⟨hv, ⟨h2.1.1, ?_⟩, rfl, fun y hy _ => ?_, ?_⟩
              · intro f fs hf y hy
                exact hi.2 f fs hf y hy
              · have e1 := h1.2.glob y hy (.inl (by simp [Frames.abs]))
                have e2 := h2.2.glob y hy (.inl (by
                  have := h1.2.len
                  intro h0
                  rw [h0] at this
                  simp [Frames.abs] at this))
                exact e2.trans e1
              · intro f fs f' fs' e e' y _
                have : (Frames.abs s.fr).locs = (Frames.abs (⟨u.fr.globals, s.fr.frames⟩ : Frames Val Unit)).locs := rfl
                rw [this] at e
                rw [e] at e'
                simp only [List.cons.injEq] at e'
                rw [e'.1]
            refine post_bind (ih.defaults _ _ _ (hD _).1 hi1) fun _ t h => post_bind (ih.s _ _ _ _ (hD _).2 h.1) fun f u h2 => ?_
            cases f with
            | ret v => exact post_ok (back t u v (h2.1 v rfl) h h2.2)
            | normal => exact post_ok (back t u Val.none (by decide) h h2.2)
            | brk => exact post_err
            | cont => exact post_err
          | _ => exact post_err
      | _ => exact post_err
    · intro d ds s ht hi
      cases ds with
      | nil => simp only [evalDefaults]; exact post_ok (Good.refl hi)
      | cons x e rest =>
        simp only [TameD] at ht
        simp only [evalDefaults]
        exact post_bind (ih.e _ _ _ ht.2.1 hi) fun v t h => post_bind (assign_good hP h.2.1 h.1 ht.1) fun _ u h2 =>
          post_imp (ih.defaults _ _ _ ht.2.2 h2.2.1) fun _ z h3 => (h.2.trans h2.2).trans h3
    · intro d fd c s ht hi
      cases c with
      | skip => simp only [execS]; exact nor (Good.refl hi) (by simp)
      | line => simp only [execS]; exact nor (Good.refl hi) (by simp)
      | seq a b =>
        simp only [TameS] at ht
        simp only [execS]
        refine post_bind (ih.s _ _ _ _ ht.1 hi) fun f t h => ?_
        cases f with
        | normal => exact tr h.2 (ih.s _ _ _ _ ht.2 h.2.1)
        | brk => exact nor h.2 (by simp)
        | cont => exact nor h.2 (by simp)
        | ret v => exact post_ok h
      | expr e => simp only [execS]; exact post_bind (ih.e _ _ _ ht hi) fun _ t h => nor (oh h.2) (by simp)
      | assign op x e =>
        simp only [TameS] at ht
        simp only [execS]
        exact post_bind (ih.e _ _ _ ht.2 hi) fun _ t h => trS h.2 (post_bind (assign_good hP h.2.1 h.1 ht.1) fun _ u h2 => nor (oh h2.2) (by simp))
      | assignIdx op a i e =>
        simp only [TameS] at ht
        simp only [execS]
        exact post_bind (ih.e _ _ _ ht.1 hi) fun _ t h => post_room (trS h.2 (post_bind (ih.e _ _ _ ht.2.1 h.2.1) fun _ u h2 => post_room
          (trS h2.2 (post_bind (ih.e _ _ _ ht.2.2 h2.2.1) fun _ z h3 => trS h3.2 (post_bind (hd z (Hidden P.W) _ h3.2.1 (hP.storeIdx _ _ _ _ _))
            fun _ q h4 => nor (oh h4.2) (by simp))))))
      | ret o =>
        cases o with
        | none => simp only [execS]; exact post_ok ⟨fun v e => by simp at e; rw [← e]; decide, Good.refl hi⟩
        | some e =>
          simp only [execS]
          exact post_bind (ih.e _ _ _ ht hi) fun v t h => post_ok ⟨fun u e => by simp at e; rw [← e]; exact h.1, oh h.2⟩
      | brk => simp only [execS]; exact nor (Good.refl hi) (by simp)
      | cont => simp only [execS]; exact nor (Good.refl hi) (by simp)
      | global x =>
        simp only [TameS] at ht
        simp only [execS]
        refine post_ite post_err (nor ?_ (by simp))
        unfold Good
        simp only []
        rw [(hP.alloc s.w).1, markGlobal_abs]
        exact declare_same hi ht outer_hidden
      | del x => exact absurd ht id
      | delIdx a i =>
        simp only [TameS] at ht
        simp only [execS]
        refine post_bind (ih.e _ _ _ ht.1 hi) fun _ t h => post_room (trS h.2 (post_bind (ih.e _ _ _ ht.2 h.2.1) fun _ u h2 => ?_))
        split
        · exact nor (oh h2.2) (by simp)
        · exact post_err
      | assert e => simp only [execS]; exact post_bind (ih.e _ _ _ ht hi) fun _ t h => post_ite (nor (oh h.2) (by simp)) post_err
      | ifs c t els =>
        simp only [TameS] at ht
        simp only [execS]
        exact post_bind (ih.e _ _ _ ht.1 hi) fun _ t h => trS h.2 (post_ite (ih.s _ _ _ _ ht.2.1 h.2.1) (ih.els _ _ _ _ ht.2.2 h.2.1))
      | whil c body els => simp only [execS]; exact ih.whil _ _ _ _ _ _ ht.1 ht.2.1 ht.2.2 hi
      | forRange x args body els =>
        simp only [TameS] at ht
        simp only [execS]
        refine post_bind (ih.args _ _ _ ht.2.2.1 hi) fun l t h => trS h.2 ?_
        rcases hr : rangeStart P x (UInt8.ofNat fd) l t.fr t.w with ⟨_ | _, fr, w⟩
        · exact post_err
        · have hg := rangeStart_good hP h.2.1 ht.1 ht.2.1 hr
          exact tr hg (ih.range _ _ _ _ _ _ ht.1 ht.2.1 ht.2.2.2.1 ht.2.2.2.2 hg.1)
      | forIn x e body els =>
        simp only [TameS] at ht
        simp only [execS]
        refine post_bind (ih.e _ _ _ ht.2.2.1 hi) fun v t h => trS h.2 ?_
        refine post_bind (assign_good hP h.2.1 h.1 (tmp_not_outer hP.width ht.2.1 (i := 0) (by decide))) fun _ u h2 => tr h2.2 ?_
        obtain ⟨fr', e1, e2, e3⟩ := store_good hP (K := Outer P.W fd) h2.2.1 (x := forTmp P.W (UInt8.ofNat fd) 1) (v := Val.zero) (by decide)
          (tmp_not_outer hP.width ht.2.1 (i := 1) (by decide))
        have : u.assign P .plain (forTmp P.W (UInt8.ofNat fd) 1) Val.zero = .ok Val.zero ⟨fr', (P.varAlloc u.w).2.2⟩ := by
          rw [St.assign, assignId]
          simp only [plainStore, e1]
          rfl
        rw [this]
        refine tr e3 (ih.inn _ _ _ _ _ _ ht.1 ht.2.1 ht.2.2.2.1 ht.2.2.2.2 e3.1 ?_)
        simp only [e2]
        exact localVal_assign P h2.2.1 (tmp_hidden hP.width ht.2.1 (by decide))
    · intro d fd c s ht hi
      cases c with
      | none => simp only [execElse]; exact nor (Good.refl hi) (by simp)
      | els t => simp only [execElse]; exact ih.s _ _ _ _ ht hi
      | elif l c t rest =>
        simp only [TameElse] at ht
        simp only [execElse]
        exact post_bind (ih.e _ _ _ ht.1 hi) fun _ t h => trS h.2 (post_ite (ih.s _ _ _ _ ht.2.1 h.2.1) (ih.els _ _ _ _ ht.2.2 h.2.1))
    · intro d fd c b e s hc hb he hi
      rw [execWhile]
      refine post_bind (ih.e _ _ _ hc hi) fun v t h => trS h.2 (post_ite (post_bind (ih.s _ _ _ _ hb h.2.1) fun f u h2 => ?_) (ih.s _ _ _ _ he h.2.1))
      cases f with
      | normal => exact tr h2.2 (ih.whil _ _ _ _ _ _ hc hb he h2.2.1)
      | cont => exact tr h2.2 (ih.whil _ _ _ _ _ _ hc hb he h2.2.1)
      | brk => exact nor h2.2 (by simp)
      | ret v => exact post_ok h2
    · intro d fd x b e s hx hfd hb he hi
      rw [execRange]
      rcases hr : rangeStep P x (UInt8.ofNat fd) s.fr with ⟨l, fr⟩
      have hg := rangeStep_good (K := Outer P.W fd) outer_hidden hi hx hr
      cases l with
      | go =>
        refine tr hg (post_bind (ih.s _ _ _ _ hb hg.1) fun f u h2 => ?_)
        have h3 : Good P.W (Outer P.W fd) ⟨fr, s.w⟩ u := h2.2.mono outer_succ
        cases f with
        | normal => exact tr h3 (ih.range _ _ _ _ _ _ hx hfd hb he h3.1)
        | cont => exact tr h3 (ih.range _ _ _ _ _ _ hx hfd hb he h3.1)
        | brk => exact nor h3 (by simp)
        | ret v => exact post_ok ⟨h2.1, h3⟩
      | stop => exact tr hg (ih.s _ _ _ _ he hg.1)
      | error => exact post_err
    · intro d fd x b e s hx hfd hb he hi hl
      rw [execIn]
      rcases hr : inStep P x (UInt8.ofNat fd) s.fr s.w with ⟨l, fr, w⟩
      have hg := fun hne => inStep_good (K := Outer P.W fd) hP outer_hidden hi hx (tmp_not_outer hP.width hfd (i := 1) (by decide)) hl hr hne
      cases l with
      | go =>
        obtain ⟨hg, hl1⟩ := hg (by simp)
        refine tr hg (post_bind (ih.s _ _ _ _ hb hg.1) fun f u h2 => ?_)
        have h3 : Good P.W (Outer P.W fd) ⟨fr, w⟩ u := h2.2.mono outer_succ
        have hl2 := hl1.same h2.2.2 (tmp_outer hP.width hfd (i := 1) (by decide))
        cases f with
        | normal => exact tr h3 (ih.inn _ _ _ _ _ _ hx hfd hb he h3.1 hl2)
        | cont => exact tr h3 (ih.inn _ _ _ _ _ _ hx hfd hb he h3.1 hl2)
        | brk => exact nor h3 (by simp)
        | ret v => exact post_ok ⟨h2.1, h3⟩
      | stop =>
        obtain ⟨hg, -⟩ := hg (by simp)
        exact tr hg (ih.s _ _ _ _ he hg.1)
      | error => exact post_err

end

end Snek.Lang
