import Verif.Proofs.VmCalls
/-!
# The machine runs forever only where the evaluator does not end

With more and more fuel the evaluation of a piece of code is cut off, if at all, later and later in the run of the machine. The
simulation (`sim_all`) supplies the states between the pieces.
-/
namespace Snek.Lang
open Store (Val)
open Snek.Vm

section
variable {σ α β : Type} {P : Prim σ}

/-- From `a` to `b` in at least `k` steps. -/
def Far (P : Prim σ) : Nat → Vm σ → Vm σ → Prop
  | 0, a, b => Steps P a b
  | k + 1, a, b => ∃ t, step P a = .run t ∧ Far P k t b

theorem Far.less {k : Nat} {a b : Vm σ} (h : Far P (k + 1) a b) : Far P k a b := by
  induction k generalizing a with
  | zero => obtain ⟨t, h1, h2⟩ := h; exact .step h1 h2
  | succ k ih => obtain ⟨t, h1, h2⟩ := h; exact ⟨t, h1, ih h2⟩

theorem Far.back {k : Nat} {a b c : Vm σ} (h : Steps P a b) (hr : Far P k b c) : Far P k a c := by
  induction h with
  | refl => exact hr
  | step h _ ih => exact Far.less ⟨_, h, ih hr⟩

theorem Far.steps {k : Nat} {a b : Vm σ} (h : Far P k a b) : Steps P a b := by
  induction k with
  | zero => exact h
  | succ k ih => exact ih h.less

/-- If the evaluation was cut off, the machine gets to where it was cut off in at least `k` steps. -/
def Deep (P : Prim σ) (k : Nat) (vm : Vm σ) : R σ α → Prop
  | .time g w => ∃ vm', Far P k vm vm' ∧ vm'.fr.globals = g ∧ vm'.w = w
  | _ => True

theorem deep_done {k : Nat} {vm : Vm σ} {r : R σ α} (h : r.cut = false) : Deep P k vm r := by
  cases r with
  | time g w => simp [R.cut] at h
  | _ => trivial

theorem Deep.back {k : Nat} {a b : Vm σ} {r : R σ α} (h : Steps P a b) (hr : Deep P k b r) : Deep P k a r := by
  cases r with
  | time g w => obtain ⟨vm', h1, h2⟩ := hr; exact ⟨vm', h1.back h, h2⟩
  | _ => trivial

theorem Deep.zero {vm : Vm σ} {r : R σ α} {Post} (h : Sim P vm r Post) : Deep P 0 vm r := by
  cases r with
  | time g w => exact h
  | _ => trivial

/-- With enough fuel the evaluation is not cut off, or at least `k` machine steps later. -/
structure Trm (P : Prim σ) (k : Nat) (vm : Vm σ) (r : Nat → R σ α) : Prop where
  mono : ∀ n, R.le (r n) (r (n + 1))
  ends : ∃ N, ∀ n, N ≤ n → Deep P k vm (r n)

theorem le_more {r : Nat → R σ α} (h : ∀ n, R.le (r n) (r (n + 1))) {n m : Nat} (hnm : n ≤ m) : R.le (r n) (r m) := by
  induction hnm with
  | refl => exact R.le_refl _
  | step _ ih => exact R.le_trans ih (h _)

theorem Trm.bind {k : Nat} {vm : Vm σ} {r : Nat → R σ α} {f : Nat → α → St σ → R σ β} {Q}
    (hs : ∀ n, Sim P vm (r n) Q) (h : Trm P k vm r) (hk : ∀ a s vm', Q a s vm' → Trm P k vm' (fun n => f n a s)) :
    Trm P k vm (fun n => (r n).bind (f n)) := by
  constructor
  · intro n
    have h1 := h.mono n
    have h2 := hs n
    cases hn : r n with
    | time g w => exact R.le_time _
    | over => rw [hn] at h1; rw [R.le_eq h1 rfl rfl]; exact R.le_refl _
    | err g w => rw [hn] at h1; rw [R.le_eq h1 rfl rfl]; exact R.le_refl _
    | ok a s =>
      rw [hn] at h1 h2; rw [R.le_eq h1 rfl rfl]
      obtain ⟨vm', _, hq⟩ := h2
      exact (hk a s vm' hq).mono n
  · by_cases hcut : ∃ n, (r n).cut = false
    · obtain ⟨n, hn⟩ := hcut
      have h2 := hs n
      have stable : ∀ m, n ≤ m → r m = r n := fun m hm => R.le_eq (le_more h.mono hm) rfl hn
      cases hv : r n with
      | time g w => rw [hv] at hn; simp [R.cut] at hn
      | over => exact ⟨n, fun m hm => by simp only [stable m hm, hv]; trivial⟩
      | err g w => exact ⟨n, fun m hm => by simp only [stable m hm, hv]; trivial⟩
      | ok a s =>
        rw [hv] at h2
        obtain ⟨vm', hst, hq⟩ := h2
        obtain ⟨N, hN⟩ := (hk a s vm' hq).ends
        refine ⟨n + N, fun m hm => ?_⟩
        simp only [stable m (by omega), hv, R.bind]
        exact (hN m (by omega)).back hst
    · obtain ⟨N, hN⟩ := h.ends
      refine ⟨N, fun m hm => ?_⟩
      have h3 := hN m hm
      cases hv : r m with
      | time g w => rw [hv] at h3; exact h3
      | _ => exact absurd ⟨m, by rw [hv]; rfl⟩ hcut

theorem Trm.steps {k : Nat} {vm vm1 : Vm σ} {r : Nat → R σ α} (h : Steps P vm vm1) (h2 : Trm P k vm1 r) : Trm P k vm r :=
  ⟨h2.mono, h2.ends.imp fun _ hN n hn => (hN n hn).back h⟩

/-- The steps of a loop or call count. -/
theorem Trm.step {k : Nat} {vm vm1 : Vm σ} {r : Nat → R σ α} (h : step P vm = .run vm1) (h2 : Trm P k vm1 r) : Trm P (k + 1) vm r := by
  refine ⟨h2.mono, h2.ends.imp fun _ hN n hn => ?_⟩
  have := hN n hn
  cases hr : r n with
  | time g w => rw [hr] at this; obtain ⟨vm', h1, h2⟩ := this; exact ⟨vm', ⟨_, h, h1⟩, h2⟩
  | _ => trivial

theorem Trm.const {k : Nat} {vm : Vm σ} {r : R σ α} (h : r.cut = false) : Trm P k vm (fun _ => r) :=
  ⟨fun _ => R.le_refl _, 0, fun _ _ => deep_done h⟩

theorem Trm.room {k d : Nat} {vm : Vm σ} {r : Nat → R σ α} (h : d < P.cap → Trm P k vm r) :
    Trm P k vm (fun n => needRoom P d (r n)) := by
  by_cases hd : d < P.cap
  · simp only [needRoom, if_pos hd]; exact h hd
  · simp only [needRoom, if_neg hd]; exact .const rfl

theorem Trm.shift {k : Nat} {vm : Vm σ} {r : Nat → R σ α} (h0 : (r 0).cut = true) (h : Trm P k vm (fun n => r (n + 1))) : Trm P k vm r := by
  refine ⟨fun n => ?_, ?_⟩
  · cases n with
    | zero => exact .inl h0
    | succ n => exact h.mono n
  · obtain ⟨N, hN⟩ := h.ends
    refine ⟨N + 1, fun n hn => ?_⟩
    obtain ⟨m, rfl⟩ : ∃ m, n = m + 1 := ⟨n - 1, by omega⟩
    exact hN m (by omega)

theorem prim_cut (s : St σ) (o : Option Val × σ) : (s.prim o).cut = false := by
  rcases o with ⟨_ | v, w⟩ <;> rfl

theorem assign_cut (s : St σ) (op x v) : (s.assign P op x v).cut = false := by
  unfold St.assign; split <;> rfl

theorem bind_cut_false {a : R σ α} {f : α → St σ → R σ β} (h : a.cut = false) (hf : ∀ x s, (f x s).cut = false) : (a.bind f).cut = false := by
  cases a with
  | ok x s => exact hf x s
  | time g w => simp [R.cut] at h
  | _ => rfl

theorem run_item {c : Ctx} {C ip acc stk0} {s : St σ} {ln} {it : Item} {vm1} (h : ItemAt P.W C ip it)
    (he : exec1 P it.1 it.2 ip (st c C (ip + it.1.size P.W) acc stk0 s ln) = .ok vm1 false) :
    step P (st c C ip acc stk0 s ln) = .run vm1 := by rw [step_item h, he]; rfl
end

section
variable {σ : Type} (P : Prim σ) (conv : BitVec 32 → BitVec 8) (defs : Nat → FunDef)

def TE (k : Nat) (e : Expr) : Prop := ∀ z d (s : St σ) c C base acc stk p ln, WfE P.W z e →
  CodeAt P.W C base (compE P.W conv p base e) → Dp P stk d → Trm P k (st c C base acc stk s ln) (fun n => evalE P defs n d e s)

def TChain (k : Nat) (b : Expr) (more : Chain) : Prop := ∀ d x r (s : St σ) c C base stk vm t, WfE P.W true b → WfChain P.W r more →
  CodeAt P.W C base (compE P.W conv false base b) →
  CodeAt P.W C (base + isz P.W (compE P.W conv false base b))
    (compMore P.W conv (fun c => .chain c t) (base + isz P.W (compE P.W conv false base b)) r more) →
  t = base + isz P.W (compE P.W conv false base b) +
    isz P.W (compMore P.W conv (fun c => .chain c t) (base + isz P.W (compE P.W conv false base b)) r more) →
  Dp P stk d → (d < P.cap → ∃ acc ln, vm = st c C base acc (x :: stk) s ln) →
  Trm P k vm (fun n => evalChain P defs n d x r b more s)

def TOpt (k : Nat) (o : OptE) : Prop := ∀ z d (s : St σ) c C base acc stk ln, WfOpt P.W z o →
  CodeAt P.W C base (compOpt P.W conv base o) → Dp P stk d → Trm P k (st c C base acc stk s ln) (fun n => evalOpt P defs n d o s)

def TArgs (k : Nat) (es : Exprs) : Prop := ∀ z d (s : St σ) c C base acc stk ln, WfArgs P.W z es →
  CodeAt P.W C base (compArgs P.W conv base es) → Dp P stk d → Trm P k (st c C base acc stk s ln) (fun n => evalArgs P defs n d es s)

def TNamed (k : Nat) (es : Named) : Prop := ∀ z d (s : St σ) c C base acc stk ln, WfNamed P.W z es →
  CodeAt P.W C base (compNamed P.W conv base es) → Dp P stk d → Trm P k (st c C base acc stk s ln) (fun n => evalNamed P defs n d es s)

def TCall (k : Nat) : Prop := ∀ d fv pos named (s : St σ) c C ip acc stk p ln,
  ItemAt P.W C ip (.call (pos.length + 256 * named.length), p) → pos.length < 256 → (∀ q ∈ named, q.1 < 2 ^ 15) →
  Dp P stk d →
  Trm P k (st c C ip acc ((flatten named).reverse ++ (pos.reverse ++ fv :: stk)) s ln) (fun n => callV P defs n d fv pos named s)

def TDefaults (k : Nat) (ds : Named) : Prop := ∀ z d (s : St σ) c C base acc stk ln, WfNamed P.W z ds →
  CodeAt P.W C base (compDefaults P.W conv base ds) → Dp P stk d → Trm P k (st c C base acc stk s ln) (fun n => evalDefaults P defs n d ds s)

def TS (k : Nat) (t : Stmt) : Prop := ∀ z d fd (s : St σ) f c C base acc stk ln, PatchFn P.W f → WfS P.W z t →
  CodeAt P.W C base ((compS P.W conv fd base t).map f) → Dp P stk d → Trm P k (st c C base acc stk s ln) (fun n => execS P defs n d fd t s)

def TElse (k : Nat) (els : Else) : Prop := ∀ d fd (s : St σ) f c C base acc stk ln E, PatchFn P.W f → WfElse P.W els →
  CodeAt P.W C base ((compElse P.W conv fd base els).map f) →
  f (.forward (fwIf + 58 * 256), false) = (.branch E, false) → E = base + isz P.W (compElse P.W conv fd base els) →
  Dp P stk d → Trm P k (st c C (elseOff P.W base els) acc stk s ln) (fun n => execElse P defs n d fd els s)

def TWhile (k : Nat) (e : Expr) (body els : Stmt) : Prop := ∀ z d fd (s : St σ) f c C base acc stk ln, PatchFn P.W f →
  WfS P.W z (.whil e body els) → CodeAt P.W C base ((compS P.W conv fd base (.whil e body els)).map f) → Dp P stk d →
  Trm P k (st c C base acc stk s ln) (fun n => execWhile P defs n d fd e body els s)

def TRange (k : Nat) (body els : Stmt) : Prop := ∀ z d fd x (s : St σ) f c C b0 acc stk ln, PatchFn P.W f →
  WfS P.W true body → WfS P.W z els →
  CodeAt P.W C b0 ((loopCode P conv fd b0 (fun t => .rangeStep t (UInt8.ofNat fd) x) body els).map f) → Dp P stk d →
  Trm P k (st c C b0 acc stk s ln) (fun n => execRange P defs n d fd x body els s)

def TIn (k : Nat) (body els : Stmt) : Prop := ∀ z d fd x (s : St σ) f c C b0 acc stk ln, PatchFn P.W f →
  WfS P.W true body → WfS P.W z els →
  CodeAt P.W C b0 ((loopCode P conv fd b0 (fun t => .inStep t (UInt8.ofNat fd) x) body els).map f) → Dp P stk d →
  Trm P k (st c C b0 acc stk s ln) (fun n => execIn P defs n d fd x body els s)

/-- The simulation, for every fuel. -/
structure Sims : Prop where
  e : ∀ n, SimE P conv defs n
  ch : ∀ n, SimChain P conv defs n
  o : ∀ n, SimOpt P conv defs n
  a : ∀ n, SimArgs P conv defs n
  nm : ∀ n, SimNamed P conv defs n
  ds : ∀ n, SimDefaults P conv defs n
  s : ∀ n, SimS P conv defs n
  el : ∀ n, SimElse P conv defs n
  v : ∀ n, SimCall P defs n
  w : ∀ n, SimWhile P conv defs n
  r : ∀ n, SimRange P conv defs n
  i : ∀ n, SimIn P conv defs n

theorem sims (hW : 2 ≤ P.W) (hF : ∀ k, FnOk P conv (P.code k) (defs k)) : Sims P conv defs := by
  have h := fun n => sim_all (conv := conv) (defs := defs) hW hF n
  exact ⟨fun n => (h n).1, fun n => (h n).2.1, fun n => (h n).2.2.1, fun n => (h n).2.2.2.1, fun n => (h n).2.2.2.2.1,
    fun n => (h n).2.2.2.2.2.2.1, fun n => (h n).2.2.2.2.2.2.2.1, fun n => (h n).2.2.2.2.2.2.2.2.1,
    fun n => (h n).2.2.2.2.2.1, fun n => (h n).2.2.2.2.2.2.2.2.2.1, fun n => (h n).2.2.2.2.2.2.2.2.2.2.1, fun n => (h n).2.2.2.2.2.2.2.2.2.2.2⟩
end

section
variable {σ : Type} {P : Prim σ} {conv : BitVec 32 → BitVec 8} {defs : Nat → FunDef}

theorem const_bind {α β : Type} {r : R σ α} {k : Nat} {vm : Vm σ} {f : Nat → α → St σ → R σ β} (h : r.cut = false)
    (hf : ∀ a s, r = .ok a s → Trm P k vm (fun n => f n a s)) : Trm P k vm (fun n => r.bind (f n)) := by
  cases r with
  | ok a s => exact hf a s rfl
  | time g w => simp [R.cut] at h
  | _ => exact .const rfl

macro "zero_cut" : tactic =>
  `(tactic| first | (rw [evalE]; rfl) | (rw [evalChain]; rfl) | (rw [evalOpt]; rfl) | (rw [evalArgs]; rfl) | (rw [evalNamed]; rfl) |
    (rw [evalDefaults]; rfl) | (rw [callV]; rfl) | (rw [execS]; rfl) | (rw [execElse]; rfl) | (rw [execWhile]; rfl) |
    (rw [execRange]; rfl) | (rw [execIn]; rfl))

mutual
theorem trmE {k : Nat} (S : Sims P conv defs) (hV : TCall P defs k) (e : Expr) : TE P conv defs k e := by
  intro z d s c C base acc stk p ln wf hc hd
  refine .shift (by zero_cut) ?_
  cases e with
  | num u => simp only [evalE]; exact .const rfl
  | str o => simp only [evalE]; exact .const rfl
  | name x =>
    simp only [evalE]
    split
    · exact .const rfl
    · exact .const rfl
  | unary op e =>
    norm_at hc
    have h0 := trmE S hV e z d s c C base acc stk false ln wf hc.1 hd
    have hs := fun n => S.e n z d e s c C base acc stk false ln wf hc.1 hd
    cases op <;> simp only [evalE] <;> refine Trm.bind hs h0 ?_ <;> intro v s' vm' h
    · exact .const rfl
    · exact .const (prim_cut _ _)
    · exact .const (prim_cut _ _)
  | binary op a b =>
    norm_at hc
    simp only [evalE]
    refine Trm.bind (fun n => S.e n z d a s c C base acc stk true ln wf.1 hc.1.1 hd)
      (trmE S hV a z d s c C base acc stk true ln wf.1 hc.1.1 hd) ?_
    intro x s1 vm1 h1
    refine Trm.room fun hr => ?_
    obtain ⟨ln1, rfl⟩ := h1.pushed hr
    refine Trm.bind (fun n => S.e n z (d + 1) b s1 c C _ x (x :: stk) false ln1 wf.2 hc.1.2 (hd.push hr x))
      (trmE S hV b z (d + 1) s1 c C _ x (x :: stk) false ln1 wf.2 hc.1.2 (hd.push hr x)) ?_
    intro y s2 vm2 h2
    exact .const (prim_cut _ _)
  | index a b =>
    norm_at hc
    simp only [evalE]
    refine Trm.bind (fun n => S.e n z d a s c C base acc stk true ln wf.1 hc.1.1 hd)
      (trmE S hV a z d s c C base acc stk true ln wf.1 hc.1.1 hd) ?_
    intro x s1 vm1 h1
    refine Trm.room fun hr => ?_
    obtain ⟨ln1, rfl⟩ := h1.pushed hr
    refine Trm.bind (fun n => S.e n z (d + 1) b s1 c C _ x (x :: stk) false ln1 wf.2 hc.1.2 (hd.push hr x))
      (trmE S hV b z (d + 1) s1 c C _ x (x :: stk) false ln1 wf.2 hc.1.2 (hd.push hr x)) ?_
    intro y s2 vm2 h2
    exact .const (prim_cut _ _)
  | and a b =>
    norm_at hc
    obtain ⟨h0, h1, h2, h3⟩ := hc
    have hb := h1.item (by simp)
    simp only [evalE]
    refine Trm.bind (fun n => S.e n z d a s c C base acc stk false ln wf.1 h0 hd)
      (trmE S hV a z d s c C base acc stk false ln wf.1 h0 hd) ?_
    intro x s1 vm1 k1
    obtain ⟨ht, ln1, rfl⟩ := k1.noPush
    cases htr : P.truth s1.w x with
    | true =>
      refine Trm.steps (step_run hb (vm1 := st c C (base + isz P.W (compE P.W conv false base a) + 1 + P.W) x stk s1 ln1)
        (by simp only [exec1, st, htr, if_true, sz_branchFalse, ← Nat.add_assoc])) ?_
      simp only [if_true]
      exact trmE S hV b z d s1 c C _ x stk false ln1 wf.2 h2 hd
    | false => simp only [if_false, Bool.false_eq_true]; exact .const rfl
  | or a b =>
    norm_at hc
    obtain ⟨h0, h1, h2, h3⟩ := hc
    have hb := h1.item (by simp)
    simp only [evalE]
    refine Trm.bind (fun n => S.e n z d a s c C base acc stk false ln wf.1 h0 hd)
      (trmE S hV a z d s c C base acc stk false ln wf.1 h0 hd) ?_
    intro x s1 vm1 k1
    obtain ⟨ht, ln1, rfl⟩ := k1.noPush
    cases htr : P.truth s1.w x with
    | false =>
      refine Trm.steps (step_run hb (vm1 := st c C (base + isz P.W (compE P.W conv false base a) + 1 + P.W) x stk s1 ln1)
        (by simp only [exec1, st, htr, if_false, Bool.false_eq_true, sz_branchTrue, ← Nat.add_assoc])) ?_
      simp only [if_false, Bool.false_eq_true]
      exact trmE S hV b z d s1 c C _ x stk false ln1 wf.2 h2 hd
    | true => simp only [if_true]; exact .const rfl
  | cmp a r b more =>
    norm_at hc
    obtain ⟨h0, h1, h2, h3⟩ := hc
    simp only [evalE]
    refine Trm.bind (fun n => S.e n true d a s c C base acc stk true ln wf.1 h0 hd)
      (trmE S hV a true d s c C base acc stk true ln wf.1 h0 hd) ?_
    intro x s1 vm1 k1
    generalize ht : base + isz P.W (compE P.W conv true base a) + isz P.W (compE P.W conv false
      (base + isz P.W (compE P.W conv true base a)) b) + isz P.W (compMore P.W conv (fun c => .chain c 0)
      (base + isz P.W (compE P.W conv true base a) + isz P.W (compE P.W conv false
      (base + isz P.W (compE P.W conv true base a)) b)) r more) = t at *
    have ht2 := ht
    rw [compMore_size 0 t] at ht2
    refine trmChain S hV (trmE S hV b) more d x r s1 c C _ stk vm1 t wf.2.1 wf.2.2 h1 h2 ht2.symm hd ?_
    intro hr
    obtain ⟨ln1, h⟩ := k1.pushed hr
    exact ⟨x, ln1, h⟩
  | slice a b e t =>
    norm_at hc
    obtain ⟨h0, h1, h2, h3, h4⟩ := hc
    simp only [evalE]
    refine Trm.bind (fun n => S.e n z d a s c C base acc stk true ln wf.1 h0 hd)
      (trmE S hV a z d s c C base acc stk true ln wf.1 h0 hd) ?_
    intro x s1 vm1 k1
    refine Trm.room fun hr => ?_
    obtain ⟨ln1, rfl⟩ := k1.pushed hr
    refine Trm.bind (fun n => S.o n z (d + 1) b s1 c C _ x (x :: stk) ln1 wf.2.1 h1 (hd.push hr x))
      (trmOpt S hV b z (d + 1) s1 c C _ x (x :: stk) ln1 wf.2.1 h1 (hd.push hr x)) ?_
    rintro vb s2 vm2 ⟨t2, q2, b2, acc2, ln2, rfl⟩
    refine Trm.bind (fun n => S.o n z _ e s2 c C _ acc2 _ ln2 wf.2.2.1 h2 (dp_opt (hd.push hr x) b2))
      (trmOpt S hV e z _ s2 c C _ acc2 _ ln2 wf.2.2.1 h2 (dp_opt (hd.push hr x) b2)) ?_
    rintro ve s3 vm3 ⟨t3, q3, b3, acc3, ln3, rfl⟩
    refine Trm.bind (fun n => S.o n z _ t s3 c C _ acc3 _ ln3 wf.2.2.2 h3 (dp_opt (dp_opt (hd.push hr x) b2) b3))
      (trmOpt S hV t z _ s3 c C _ acc3 _ ln3 wf.2.2.2 h3 (dp_opt (dp_opt (hd.push hr x) b2) b3)) ?_
    rintro vt s4 vm4 -
    exact .const (prim_cut _ _)
  | call f args named =>
    norm_at hc
    obtain ⟨h0, h1, h2, h3⟩ := hc
    have hi := h3.item (by simp)
    simp only [evalE]
    refine Trm.bind (fun n => S.e n z d f s c C base acc stk true ln wf.1 h0 hd)
      (trmE S hV f z d s c C base acc stk true ln wf.1 h0 hd) ?_
    intro x s1 vm1 k1
    refine Trm.room fun hr => ?_
    obtain ⟨ln1, rfl⟩ := k1.pushed hr
    refine Trm.bind (fun n => S.a n z (d + 1) args s1 c C _ x (x :: stk) ln1 wf.2.1 h1 (hd.push hr x))
      (trmArgs S hV args z (d + 1) s1 c C _ x (x :: stk) ln1 wf.2.1 h1 (hd.push hr x)) ?_
    rintro pos s2 vm2 ⟨t2, q2, b2, acc2, ln2, rfl⟩
    have hd1 := hd.1
    have hd2 : Dp P (pos.reverse ++ x :: stk) (d + 1 + args.length) := ⟨by simp [hd1, q2]; omega, by simp [q2] at b2; omega⟩
    refine Trm.bind (fun n => S.nm n z _ named s2 c C _ acc2 _ ln2 wf.2.2.1 h2 hd2)
      (trmNamed S hV named z _ s2 c C _ acc2 _ ln2 wf.2.2.1 h2 hd2) ?_
    rintro nm s3 vm3 ⟨t3, ⟨q3, q3'⟩, -, acc3, ln3, rfl⟩
    rw [← q2, ← q3] at hi
    exact hV d x pos nm s3 c C _ acc3 stk p ln3 hi (by have := wf.2.2.2.1; omega) q3' hd
  | build kk es =>
    norm_at hc
    simp only [evalE]
    refine Trm.bind (fun n => S.a n z d es s c C base acc stk ln wf.1 hc.1 hd)
      (trmArgs S hV es z d s c C base acc stk ln wf.1 hc.1 hd) ?_
    rintro l s1 vm1 -
    exact .const (prim_cut _ _)

theorem trmChain {k : Nat} (S : Sims P conv defs) (hV : TCall P defs k) {b : Expr} (hb : TE P conv defs k b) (more : Chain) :
    TChain P conv defs k b more := by
  intro d x r s c C base stk vm t wb wm h0 h1 ht hd hvm
  refine .shift (by zero_cut) ?_
  simp only [evalChain]
  have hd1 := hd.1
  refine Trm.room fun hr => ?_
  obtain ⟨acc, ln, rfl⟩ := hvm hr
  refine Trm.bind (fun n => S.e n true (d + 1) b s c C base acc (x :: stk) false ln wb h0 (hd.push hr x))
    (hb true (d + 1) s c C base acc (x :: stk) false ln wb h0 (hd.push hr x)) ?_
  intro y s1 vm1 k1
  obtain ⟨t1, ln1, rfl⟩ := k1.noPush
  cases more with
  | nil => exact .const (bind_cut_false (prim_cut _ _) fun _ _ => rfl)
  | cons r' e rest =>
    obtain ⟨⟨o, rfl⟩, we, wr⟩ := wm
    norm_at h1
    simp only [compMore, isz_cons, isz_append, sz_chain, ← Nat.add_assoc] at ht
    obtain ⟨h2, h3, h4⟩ := h1
    have hi := h2.item (by simp)
    rcases hrel : P.rel (.cmp o) x y s1.w with ⟨_ | v, w⟩
    · simp only [St.prim, R.bind]
      exact .const rfl
    · simp only [St.prim, R.bind]
      cases htr : P.truth w v with
      | true =>
        simp only [if_true]
        refine Trm.steps (vm1 := (st c C (base + isz P.W (compE P.W conv false base b) + 1 + P.W) y stk
          ⟨s1.fr, w⟩ ln1).pushAcc P) (.one ?_) ?_
        · rw [step_item hi]
          simp only [exec1, Vm.pop, st, hrel, htr, if_true, sz_chain, ← Nat.add_assoc]
        · refine trmChain S hV (trmE S hV e) rest d y r' ⟨s1.fr, w⟩ c C _ stk _ t we wr h3 h4 ht hd ?_
          intro hr
          refine ⟨y, ln1, ?_⟩
          unfold Vm.pushAcc
          rw [if_neg (show ¬ (st c C _ y stk (⟨s1.fr, w⟩ : St σ) ln1).stack.length = P.cap by
            show ¬ stk.length = P.cap; omega)]
          rfl
      | false =>
        simp only [if_false, Bool.false_eq_true]
        exact .const rfl

theorem trmOpt {k : Nat} (S : Sims P conv defs) (hV : TCall P defs k) (o : OptE) : TOpt P conv defs k o := by
  intro z d s c C base acc stk ln wf hc hd
  refine .shift (by zero_cut) ?_
  cases o with
  | none => simp only [evalOpt]; exact .const rfl
  | some e =>
    simp only [evalOpt]
    refine Trm.bind (fun n => S.e n z d e s c C base acc stk true ln wf hc hd)
      (trmE S hV e z d s c C base acc stk true ln wf hc hd) ?_
    intro v s1 vm1 k1
    exact Trm.room fun hr => .const rfl

theorem trmArgs {k : Nat} (S : Sims P conv defs) (hV : TCall P defs k) (es : Exprs) : TArgs P conv defs k es := by
  intro z d s c C base acc stk ln wf hc hd
  refine .shift (by zero_cut) ?_
  cases es with
  | nil => simp only [evalArgs]; exact .const rfl
  | cons e es =>
    norm_at hc
    simp only [evalArgs]
    refine Trm.bind (fun n => S.e n z d e s c C base acc stk true ln wf.1 hc.1 hd)
      (trmE S hV e z d s c C base acc stk true ln wf.1 hc.1 hd) ?_
    intro v s1 vm1 k1
    refine Trm.room fun hr => ?_
    obtain ⟨ln1, rfl⟩ := k1.pushed hr
    refine Trm.bind (fun n => S.a n z (d + 1) es s1 c C _ v (v :: stk) ln1 wf.2 hc.2 (hd.push hr v))
      (trmArgs S hV es z (d + 1) s1 c C _ v (v :: stk) ln1 wf.2 hc.2 (hd.push hr v)) ?_
    rintro l s2 vm2 -
    exact .const rfl

theorem trmNamed {k : Nat} (S : Sims P conv defs) (hV : TCall P defs k) (es : Named) : TNamed P conv defs k es := by
  intro z d s c C base acc stk ln wf hc hd
  refine .shift (by zero_cut) ?_
  cases es with
  | nil => simp only [evalNamed]; exact .const rfl
  | cons x e rest =>
    norm_at hc
    obtain ⟨h0, h1, h2⟩ := hc
    simp only [evalNamed]
    have k0 := sim_ok (s := s) (s1 := s) (s0 := s) (ln := ln) (ln1 := ln) (P := P) (c := c) (acc := acc)
      (ip1 := base + Ins.size P.W (numIns conv (intToF x))) (h0.item (numIns_ne_ret _ _)) hd (exec_num P conv _ (intToF_ne_negz x wf.2.1) true _ _) rfl
    obtain ⟨vm0, hs, k0⟩ := k0
    refine Trm.steps hs ?_
    refine Trm.room fun hr => ?_
    obtain ⟨ln0, rfl⟩ := k0.pushed hr
    refine Trm.bind (fun n => S.e n z (d + 1) e s c C _ _ (.num (intToF x) :: stk) true ln0 wf.2.2.1 h1 (hd.push hr _))
      (trmE S hV e z (d + 1) s c C _ _ (.num (intToF x) :: stk) true ln0 wf.2.2.1 h1 (hd.push hr _)) ?_
    intro v s1 vm1 k1
    refine Trm.room fun hr2 => ?_
    obtain ⟨ln1, rfl⟩ := k1.pushed hr2
    refine Trm.bind (fun n => S.nm n z (d + 2) rest s1 c C _ v _ ln1 wf.2.2.2 h2 ((hd.push hr _).push hr2 v))
      (trmNamed S hV rest z (d + 2) s1 c C _ v _ ln1 wf.2.2.2 h2 ((hd.push hr _).push hr2 v)) ?_
    rintro l s2 vm2 -
    exact .const rfl
end

theorem trmDefaults {k : Nat} (S : Sims P conv defs) (hV : TCall P defs k) (ds : Named) : TDefaults P conv defs k ds := by
  intro z d s c C base acc stk ln wf hc hd
  refine .shift (by zero_cut) ?_
  cases ds with
  | nil => simp only [evalDefaults]; exact .const rfl
  | cons x e rest =>
    norm_at hc
    obtain ⟨h0, h1, h2⟩ := hc
    have hi := h1.item (by simp)
    simp only [evalDefaults]
    refine Trm.bind (fun n => S.e n z d e s c C base acc stk false ln wf.2.2.1 h0 hd)
      (trmE S hV e z d s c C base acc stk false ln wf.2.2.1 h0 hd) ?_
    intro v s1 vm1 k1
    obtain ⟨t1, ln1, rfl⟩ := k1.noPush
    refine Trm.bind (fun _ => sim_assign wf.1 hi) (.const (assign_cut _ _ _ _)) ?_
    rintro r s2 vm2 ⟨t2, rfl⟩
    exact trmDefaults S hV rest z d s2 c C _ r stk ln1 wf.2.2.2 h2 hd

/-- One turn of a `for` loop. -/
theorem trmTurn {k d fd b0 body els f} {z : Bool} {stepIns : Nat → Ins} (S : Sims P conv defs) (hf : PatchFn P.W f) (hd : Dp P stk d)
    (hsz : ∀ t, (stepIns t).size P.W = 1 + (P.W + (1 + P.W))) (hnf : ∀ t k, stepIns t ≠ .forward k) (hnr : ∀ t, stepIns t ≠ .ret)
    (hB : TS P conv defs (k + 1) body) (hE : TS P conv defs (k + 1) els) (wb : WfS P.W true body) (we : WfS P.W z els)
    (hc : CodeAt P.W C b0 ((loopCode P conv fd b0 stepIns body els).map f)) :
    ∃ b2, ItemAt P.W C b0 (stepIns b2, false) ∧
      (∀ (s : St σ) acc ln, Trm P (k + 1) (st c C b2 acc stk s ln) (fun n => execS P defs n d fd els s)) ∧
      (∀ (s : St σ) acc ln (r : Nat → St σ → R σ Flow),
        (∀ acc s2 ln, Trm P k (st c C b0 acc stk s2 ln) (fun n => r n s2)) →
        Trm P (k + 1) (st c C (b0 + (1 + (P.W + (1 + P.W)))) acc stk s ln)
          (fun n => (execS P defs n d (fd + 1) body s).bind fun f s =>
            match f with
            | .normal | .cont => r n s
            | .brk => .ok .normal s
            | .ret v => .ok (.ret v) s)) := by
  unfold loopCode at hc
  simp only [List.map_append, List.map_cons, List.map_map, codeAt_append, codeAt_cons, hf.size, hsz] at hc
  rw [hf.keep (stepIns _, false) (hnf _), hf.keep (.branch _, false) (by simp)] at hc
  generalize hb1 : b0 + (1 + (P.W + (1 + P.W))) = b1 at *
  generalize hb2 : b1 + isz P.W (compS P.W conv (fd + 1) b1 body) + (1 + P.W) = b2 at *
  obtain ⟨hf', hfb, hfc⟩ := loop_fn (W := P.W) hf b0 (b2 + isz P.W (compS P.W conv fd b2 els))
  obtain ⟨h0, h1, h2, h3⟩ := hc
  simp only [hf'.isz, sz_branch, hb2] at h2 h3
  refine ⟨b2, h0.item (hnr _), ?_, ?_⟩
  · intro s acc ln
    exact hE z d fd s f c C b2 acc stk ln hf we h3 hd
  · intro s acc ln r hr
    refine Trm.bind (fun n => S.s n true d (fd + 1) body s _ c C b1 acc stk ln hf' wb h1 hd)
      (hB true d (fd + 1) s _ c C b1 acc stk ln hf' wb h1 hd) ?_
    rintro fl s2 vm2 ⟨t2, h⟩
    cases fl with
    | normal =>
      obtain ⟨acc2, ln2, rfl⟩ := h
      exact Trm.step (run_item (h2.item (by simp)) rfl) (hr acc2 s2 ln2)
    | brk => exact .const rfl
    | cont =>
      obtain ⟨ip, acc2, ln2, hw, rfl⟩ := h
      rw [hfc] at hw
      exact Trm.step (run_item (hw.item (by simp)) rfl) (hr acc2 s2 ln2)
    | ret v => exact .const rfl

/-- What is known of runs that are one step shorter. -/
structure Shorter (P : Prim σ) (conv : BitVec 32 → BitVec 8) (defs : Nat → FunDef) (k : Nat) : Prop where
  s : ∀ t, TS P conv defs k t
  w : ∀ e body els, TWhile P conv defs k e body els
  r : ∀ body els, TRange P conv defs k body els
  i : ∀ body els, TIn P conv defs k body els
  d : ∀ ds, TDefaults P conv defs k ds

theorem trmWhile {k : Nat} (S : Sims P conv defs) (H : Shorter P conv defs k) {e : Expr} {body els : Stmt}
    (hC : TE P conv defs (k + 1) e) (hB : TS P conv defs (k + 1) body) (hE : TS P conv defs (k + 1) els) :
    TWhile P conv defs (k + 1) e body els := by
  intro z d fd s f c C base acc stk ln hf wf hc hd
  refine .shift (by zero_cut) ?_
  have hc0 := hc
  normS_at hc
  rw [hf.keep (.branchFalse _, false) (by simp), hf.keep (.branch _, false) (by simp)] at hc
  obtain ⟨h0, h1, h2, h3, h4⟩ := hc
  generalize hb2 : base + isz P.W (compE P.W conv false base e) + 1 + P.W +
    isz P.W (compS P.W conv fd (base + isz P.W (compE P.W conv false base e) + 1 + P.W) body) + 1 + P.W = b2 at *
  obtain ⟨hf', hfb, hfc⟩ := loop_fn (W := P.W) hf base (b2 + isz P.W (compS P.W conv fd b2 els))
  simp only [sz_branchFalse, sz_branch, hf'.isz, ← Nat.add_assoc] at h2 h3 h4
  have hi := h1.item (by simp)
  have hj := h3.item (by simp)
  simp only [execWhile]
  refine Trm.bind (fun n => S.e n z d e s c C _ acc stk false ln wf.1 h0 hd) (hC z d s c C _ acc stk false ln wf.1 h0 hd) ?_
  intro v s1 vm1 k1
  obtain ⟨t1, ln1, rfl⟩ := k1.noPush
  cases htr : P.truth s1.w v with
  | true =>
    refine Trm.steps (step_run hi (vm1 := st c C (base + isz P.W (compE P.W conv false base e) + 1 + P.W) v stk s1 ln1)
      (by simp only [exec1, st, htr, if_true, sz_branchFalse, ← Nat.add_assoc])) ?_
    simp only [if_true]
    refine Trm.bind (fun n => S.s n true d fd body s1 _ c C _ v stk ln1 hf' wf.2.1 h2 hd)
      (hB true d fd s1 _ c C _ v stk ln1 hf' wf.2.1 h2 hd) ?_
    rintro fl s2 vm2 ⟨t2, h⟩
    cases fl with
    | normal =>
      obtain ⟨acc2, ln2, rfl⟩ := h
      exact Trm.step (run_item hj rfl) (H.w e body els z d fd s2 f c C base acc2 stk ln2 hf wf hc0 hd)
    | brk => exact .const rfl
    | cont =>
      obtain ⟨ip, acc2, ln2, hw, rfl⟩ := h
      rw [hfc] at hw
      exact Trm.step (run_item (hw.item (by simp)) rfl) (H.w e body els z d fd s2 f c C base acc2 stk ln2 hf wf hc0 hd)
    | ret v => exact .const rfl
  | false =>
    refine Trm.steps (step_run hi (vm1 := st c C b2 v stk s1 ln1)
      (by simp only [exec1, st, htr, if_false, Bool.false_eq_true])) ?_
    simp only [if_false, Bool.false_eq_true]
    rw [hb2] at h4
    exact hE z d fd s1 f c C b2 v stk ln1 hf wf.2.2 h4 hd

theorem trmRange {k : Nat} (S : Sims P conv defs) (H : Shorter P conv defs k) {body els : Stmt}
    (hB : TS P conv defs (k + 1) body) (hE : TS P conv defs (k + 1) els) : TRange P conv defs (k + 1) body els := by
  intro z d fd x s f c C b0 acc stk ln hf wb we hc hd
  refine .shift (by zero_cut) ?_
  obtain ⟨b2, hi, hels, hbody⟩ := trmTurn (c := c) S hf hd (by simp) (by simp) (by simp) hB hE wb we hc
  simp only [execRange]
  rcases hr : rangeStep P x (UInt8.ofNat fd) s.fr with ⟨r, fr⟩
  cases r with
  | error => exact .const rfl
  | stop =>
    refine Trm.steps (step_run hi (vm1 := st c C b2 acc stk ⟨fr, s.w⟩ ln) (by simp only [exec1, st, emb_rangeStep, hr])) ?_
    exact hels ⟨fr, s.w⟩ acc ln
  | go =>
    refine Trm.steps (step_run hi (vm1 := st c C (b0 + (1 + (P.W + (1 + P.W)))) acc stk ⟨fr, s.w⟩ ln)
      (by simp only [exec1, st, emb_rangeStep, hr, sz_rangeStep])) ?_
    refine hbody ⟨fr, s.w⟩ acc ln (fun n s => execRange P defs n d fd x body els s) ?_
    intro acc2 s2 ln2
    exact H.r body els z d fd x s2 f c C b0 acc2 stk ln2 hf wb we hc hd

theorem trmIn {k : Nat} (S : Sims P conv defs) (H : Shorter P conv defs k) {body els : Stmt}
    (hB : TS P conv defs (k + 1) body) (hE : TS P conv defs (k + 1) els) : TIn P conv defs (k + 1) body els := by
  intro z d fd x s f c C b0 acc stk ln hf wb we hc hd
  refine .shift (by zero_cut) ?_
  obtain ⟨b2, hi, hels, hbody⟩ := trmTurn (c := c) S hf hd (by simp) (by simp) (by simp) hB hE wb we hc
  simp only [execIn]
  rcases hr : inStep P x (UInt8.ofNat fd) s.fr s.w with ⟨r, fr, w⟩
  cases r with
  | error => exact .const rfl
  | stop =>
    refine Trm.steps (step_run hi (vm1 := st c C b2 acc stk ⟨fr, w⟩ ln) (by simp only [exec1, st, emb_inStep, hr])) ?_
    exact hels ⟨fr, w⟩ acc ln
  | go =>
    refine Trm.steps (step_run hi (vm1 := st c C (b0 + (1 + (P.W + (1 + P.W)))) acc stk ⟨fr, w⟩ ln)
      (by simp only [exec1, st, emb_inStep, hr, sz_inStep])) ?_
    refine hbody ⟨fr, w⟩ acc ln (fun n s => execIn P defs n d fd x body els s) ?_
    intro acc2 s2 ln2
    exact H.i body els z d fd x s2 f c C b0 acc2 stk ln2 hf wb we hc hd

mutual
theorem trmS {k : Nat} (hW : 2 ≤ P.W) (S : Sims P conv defs) (hV : TCall P defs (k + 1)) (H : Shorter P conv defs k) (t : Stmt) :
    TS P conv defs (k + 1) t := by
  intro z d fd s f c C base acc stk ln hf wf hc hd
  refine .shift (by zero_cut) ?_
  cases t with
  | skip => simp only [execS]; exact .const rfl
  | line l => simp only [execS]; exact .const rfl
  | seq a b =>
    normS_at hc
    simp only [execS]
    refine Trm.bind (fun n => S.s n z d fd a s f c C base acc stk ln hf wf.1 hc.1 hd)
      (trmS hW S hV H a z d fd s f c C base acc stk ln hf wf.1 hc.1 hd) ?_
    rintro fl s1 vm1 ⟨t1, h1⟩
    cases fl with
    | normal =>
      obtain ⟨acc1, ln1, rfl⟩ := h1
      exact trmS hW S hV H b z d fd s1 f c C _ acc1 stk ln1 hf wf.2 hc.2 hd
    | _ => exact .const rfl
  | expr e =>
    normS_at hc
    simp only [execS]
    refine Trm.bind (fun n => S.e n z d e s c C base acc stk false ln wf hc hd)
      (trmE S hV e z d s c C base acc stk false ln wf hc hd) ?_
    intro v s1 vm1 k1
    exact .const rfl
  | assign op x e =>
    normS_at hc
    simp only [execS]
    refine Trm.bind (fun n => S.e n z d e s c C base acc stk false ln wf.2.2 hc.1 hd)
      (trmE S hV e z d s c C base acc stk false ln wf.2.2 hc.1 hd) ?_
    intro v s1 vm1 k1
    exact .const (bind_cut_false (assign_cut _ _ _ _) fun _ _ => rfl)
  | assignIdx op a i e =>
    normS_at hc
    obtain ⟨h0, h1, h2, h3⟩ := hc
    simp only [execS]
    refine Trm.bind (fun n => S.e n z d a s c C base acc stk true ln wf.1 h0 hd)
      (trmE S hV a z d s c C base acc stk true ln wf.1 h0 hd) ?_
    intro x s1 vm1 k1
    refine Trm.room fun hr => ?_
    obtain ⟨ln1, rfl⟩ := k1.pushed hr
    refine Trm.bind (fun n => S.e n z (d + 1) i s1 c C _ x (x :: stk) true ln1 wf.2.1 h1 (hd.push hr x))
      (trmE S hV i z (d + 1) s1 c C _ x (x :: stk) true ln1 wf.2.1 h1 (hd.push hr x)) ?_
    intro y s2 vm2 k2
    refine Trm.room fun hr2 => ?_
    obtain ⟨ln2, rfl⟩ := k2.pushed hr2
    refine Trm.bind (fun n => S.e n z (d + 2) e s2 c C _ y (y :: x :: stk) false ln2 wf.2.2 h2 ((hd.push hr x).push hr2 y))
      (trmE S hV e z (d + 2) s2 c C _ y (y :: x :: stk) false ln2 wf.2.2 h2 ((hd.push hr x).push hr2 y)) ?_
    intro v s3 vm3 k3
    exact .const (bind_cut_false (prim_cut _ _) fun _ _ => rfl)
  | ret e =>
    cases e with
    | none => simp only [execS]; exact .const rfl
    | some e =>
      normS_at hc
      simp only [execS]
      refine Trm.bind (fun n => S.e n z d e s c C base acc stk false ln wf hc.1 hd)
        (trmE S hV e z d s c C base acc stk false ln wf hc.1 hd) ?_
      intro v s1 vm1 k1
      exact .const rfl
  | brk => simp only [execS]; exact .const rfl
  | cont => simp only [execS]; exact .const rfl
  | global x =>
    simp only [execS]
    split
    · exact .const rfl
    · exact .const rfl
  | del x => simp only [execS]; exact .const rfl
  | delIdx a i =>
    normS_at hc
    obtain ⟨h0, h1, h2⟩ := hc
    simp only [execS]
    refine Trm.bind (fun n => S.e n z d a s c C base acc stk true ln wf.1 h0 hd)
      (trmE S hV a z d s c C base acc stk true ln wf.1 h0 hd) ?_
    intro x s1 vm1 k1
    refine Trm.room fun hr => ?_
    obtain ⟨ln1, rfl⟩ := k1.pushed hr
    refine Trm.bind (fun n => S.e n z (d + 1) i s1 c C _ x (x :: stk) false ln1 wf.2 h1 (hd.push hr x))
      (trmE S hV i z (d + 1) s1 c C _ x (x :: stk) false ln1 wf.2 h1 (hd.push hr x)) ?_
    intro y s2 vm2 k2
    rcases hx : P.delIdx x y s2.w with ⟨_ | _, w⟩ <;> exact .const rfl
  | assert e =>
    normS_at hc
    simp only [execS]
    refine Trm.bind (fun n => S.e n z d e s c C base acc stk false ln wf hc.1 hd)
      (trmE S hV e z d s c C base acc stk false ln wf hc.1 hd) ?_
    intro v s1 vm1 k1
    cases htr : P.truth s1.w v
    · simp only [if_false, Bool.false_eq_true]; exact .const rfl
    · simp only [if_true]; exact .const rfl
  | ifs e t els =>
    normS_at hc
    rw [hf.keep (.branchFalse _, false) (by simp)] at hc
    obtain ⟨h0, h1, h2, h3⟩ := hc
    have hi := h1.item (by simp)
    have hf' := hf.comp (patchItem_fn (W := P.W) fwIf (base + isz P.W (compE P.W conv false base e) + 1 + P.W +
      isz P.W (compS P.W conv fd (base + isz P.W (compE P.W conv false base e) + 1 + P.W) t) +
      isz P.W (compElse P.W conv fd (base + isz P.W (compE P.W conv false base e) + 1 + P.W +
      isz P.W (compS P.W conv fd (base + isz P.W (compE P.W conv false base e) + 1 + P.W) t)) els)))
    have hfw : ∀ E, (f ∘ patchItem fwIf E) (.forward (fwIf + 58 * 256), false) = (.branch E, false) := by
      intro E
      simp only [Function.comp]
      exact hf.keep (.branch E, false) (by simp)
    simp only [sz_branchFalse, hf'.isz, ← Nat.add_assoc] at h2 h3
    simp only [execS]
    refine Trm.bind (fun n => S.e n z d e s c C base acc stk false ln wf.1 h0 hd)
      (trmE S hV e z d s c C base acc stk false ln wf.1 h0 hd) ?_
    intro v s1 vm1 k1
    obtain ⟨t1, ln1, rfl⟩ := k1.noPush
    cases htr : P.truth s1.w v with
    | true =>
      refine Trm.steps (step_run hi (vm1 := st c C (base + isz P.W (compE P.W conv false base e) + 1 + P.W) v stk s1 ln1)
        (by simp only [exec1, st, htr, if_true, sz_branchFalse, ← Nat.add_assoc])) ?_
      simp only [if_true]
      exact trmS hW S hV H t true d fd s1 _ c C _ v stk ln1 hf' wf.2.1 h2 hd
    | false =>
      refine Trm.steps (step_run hi (vm1 := st c C _ v stk s1 ln1)
        (by simp only [exec1, st, htr, if_false, Bool.false_eq_true]; rfl)) ?_
      simp only [if_false, Bool.false_eq_true]
      exact trmElse hW S hV H els d fd s1 _ c C _ v stk ln1 _ hf' wf.2.2 h3 (hfw _) rfl hd
  | whil e body els =>
    simp only [execS]
    exact trmWhile S H (trmE S hV e) (trmS hW S hV H body) (trmS hW S hV H els) z d fd s f c C base acc stk ln hf wf hc hd
  | forRange x args body els =>
    have hsplit : compS P.W conv fd base (.forRange x args body els) =
        compArgs P.W conv base args ++ (.rangeStart args.length (UInt8.ofNat fd) x, false) ::
          loopCode P conv fd (base + isz P.W (compArgs P.W conv base args) + (1 + (P.W + (1 + P.W))))
            (fun t => .rangeStep t (UInt8.ofNat fd) x) body els := by
      simp only [compS, loopCode]
    rw [hsplit] at hc
    simp only [List.map_append, List.map_cons, codeAt_append, codeAt_cons, compArgs_map hf, hf.size, sz_rangeStart] at hc
    rw [hf.keep (.rangeStart _ _ _, false) (by simp)] at hc
    obtain ⟨h0, h1, h2⟩ := hc
    have hi := h1.item (by simp)
    simp only [execS]
    refine Trm.bind (fun n => S.a n z d args s c C base acc stk ln wf.2.2.2.1 h0 hd)
      (trmArgs S hV args z d s c C base acc stk ln wf.2.2.2.1 h0 hd) ?_
    rintro l s1 vm1 ⟨t1, q1, -, acc1, ln1, rfl⟩
    have hex : exec1 P (.rangeStart args.length (UInt8.ofNat fd) x) false (base + isz P.W (compArgs P.W conv base args))
        (st c C (base + isz P.W (compArgs P.W conv base args) + (1 + (P.W + (1 + P.W)))) acc1 (l.reverse ++ stk) s1 ln1) =
        match rangeStart P x (UInt8.ofNat fd) l s1.fr s1.w with
        | (true, fr, w) => .ok (st c C (base + isz P.W (compArgs P.W conv base args) + (1 + (P.W + (1 + P.W)))) acc1 stk ⟨fr, w⟩ ln1) false
        | (false, fr, w) => .error (st c C (base + isz P.W (compArgs P.W conv base args) + (1 + (P.W + (1 + P.W)))) acc1 stk ⟨fr, w⟩ ln1) := by
      simp only [exec1]
      rw [← q1, popN_st]
      simp only [st, emb_rangeStart]
      rcases rangeStart P x (UInt8.ofNat fd) l s1.fr s1.w with ⟨_ | _, fr, w⟩ <;> rfl
    rcases hrs : rangeStart P x (UInt8.ofNat fd) l s1.fr s1.w with ⟨_ | _, fr, w⟩
    · exact .const rfl
    · rw [hrs] at hex
      refine Trm.steps (step_run hi (by simpa only [sz_rangeStart] using hex)) ?_
      exact trmRange S H (trmS hW S hV H body) (trmS hW S hV H els) z d fd x ⟨fr, w⟩ f c C _ acc1 stk ln1 hf wf.2.2.2.2.1 wf.2.2.2.2.2 h2 hd
  | forIn x e body els =>
    have hsplit : compS P.W conv fd base (.forIn x e body els) =
        compE P.W conv false base e ++ (.assign .plain (forTmp P.W (UInt8.ofNat fd) 0), false) :: (numIns conv 0, false) ::
          (.assign .plain (forTmp P.W (UInt8.ofNat fd) 1), false) ::
          loopCode P conv fd (base + isz P.W (compE P.W conv false base e) + (1 + P.W) + (numIns conv 0).size P.W + (1 + P.W))
            (fun t => .inStep t (UInt8.ofNat fd) x) body els := by
      simp only [compS, loopCode]
    have hft : ∀ i, i < 2 → forTmp P.W (UInt8.ofNat fd) i ≠ 0 := by
      intro i hi
      unfold forTmp
      have h1 := (UInt8.ofNat fd).toNat_lt
      have h2 : 2 ^ 16 ≤ 2 ^ (8 * P.W) := Nat.pow_le_pow_right (by omega) (by omega)
      omega
    rw [hsplit] at hc
    simp only [List.map_append, List.map_cons, codeAt_append, codeAt_cons, compE_map hf, hf.size, sz_assign] at hc
    rw [hf.keep (.assign _ _, false) (by simp), hf.keep (.assign _ _, false) (by simp),
      hf.keep (numIns conv 0, false) (fun k => numIns_ne_fwd conv 0 k)] at hc
    obtain ⟨h0, h1, h2, h3, h4⟩ := hc
    simp only [execS]
    simp only [← Nat.add_assoc] at h2 h3 h4
    refine Trm.bind (fun n => S.e n z d e s c C base acc stk false ln wf.2.2.1 h0 hd)
      (trmE S hV e z d s c C base acc stk false ln wf.2.2.1 h0 hd) ?_
    intro v s1 vm1 k1
    obtain ⟨t1, ln1, rfl⟩ := k1.noPush
    refine Trm.bind (fun _ => sim_assign (hft 0 (by omega)) (h1.item (by simp))) (.const (assign_cut _ _ _ _)) ?_
    rintro r s2 vm2 ⟨t2, rfl⟩
    have hn := h2.item (numIns_ne_ret conv 0)
    refine Trm.steps (step_run hn (exec_num P conv 0 (by decide) false _ _)) ?_
    refine Trm.bind (fun _ => sim_assign (s := s2) (c := c) (C := C) (v := Val.zero) (stk := stk) (ln := ln1) (hft 1 (by omega)) (h3.item (by simp)))
      (.const (assign_cut _ _ _ _)) ?_
    rintro r2 s3 vm3 ⟨t3, rfl⟩
    exact trmIn S H (trmS hW S hV H body) (trmS hW S hV H els) z d fd x s3 f c C _ r2 stk ln1 hf wf.2.2.2.1 wf.2.2.2.2 h4 hd

theorem trmElse {k : Nat} (hW : 2 ≤ P.W) (S : Sims P conv defs) (hV : TCall P defs (k + 1)) (H : Shorter P conv defs k) (els : Else) :
    TElse P conv defs (k + 1) els := by
  intro d fd s f c C base acc stk ln E hf wf hc hfw hE' hd
  refine .shift (by zero_cut) ?_
  cases els with
  | none => simp only [execElse]; exact .const rfl
  | els t =>
    simp only [compElse, List.map_cons, codeAt_cons, hfw, sz_branch] at hc
    simp only [← Nat.add_assoc] at hc
    simp only [execElse, elseOff, ← Nat.add_assoc]
    exact trmS hW S hV H t true d fd s f c C _ acc stk ln hf wf hc.2 hd
  | elif l e t rest =>
    normS_at hc
    rw [hf.keep (.line l, false) (by simp), hfw, hf.keep (.branchFalse _, false) (by simp)] at hc
    simp only [compElse, isz_cons, isz_append, sz_forward, sz_line, sz_branchFalse, ← Nat.add_assoc] at hE'
    simp only [sz_line, sz_branch, sz_branchFalse, ← Nat.add_assoc] at hc
    obtain ⟨_, _, h0, h1, h2, h3⟩ := hc
    have hi := h1.item (by simp)
    simp only [execElse, elseOff, ← Nat.add_assoc]
    refine Trm.bind (fun n => S.e n true d e s c C _ acc stk false ln wf.2.1 h0 hd)
      (trmE S hV e true d s c C _ acc stk false ln wf.2.1 h0 hd) ?_
    intro v s1 vm1 k1
    obtain ⟨t1, ln1, rfl⟩ := k1.noPush
    cases htr : P.truth s1.w v with
    | true =>
      refine Trm.steps (step_run hi (vm1 := st c C (base + 1 + P.W + 1 + P.W +
          isz P.W (compE P.W conv false (base + 1 + P.W + 1 + P.W) e) + 1 + P.W) v stk s1 ln1)
        (by simp only [exec1, st, htr, if_true, sz_branchFalse, ← Nat.add_assoc])) ?_
      simp only [if_true]
      exact trmS hW S hV H t true d fd s1 _ c C _ v stk ln1 hf wf.2.2.1 h2 hd
    | false =>
      refine Trm.steps (step_run hi (vm1 := st c C _ v stk s1 ln1)
        (by simp only [exec1, st, htr, if_false, Bool.false_eq_true]; rfl)) ?_
      simp only [if_false, Bool.false_eq_true]
      exact trmElse hW S hV H rest d fd s1 f c C _ v stk ln1 E hf wf.2.2.2 h3 hfw hE' hd
end

/-- A call of a function starts its code. -/
theorem call_step (hW : 2 ≤ P.W) {d fv pos named} {s : St σ} {c C ip acc stk p ln w vars}
    (hi : ItemAt P.W C ip (.call (pos.length + 256 * named.length), p)) (hpl : pos.length < 256) (hnm : ∀ q ∈ named, q.1 < 2 ^ 15)
    (hd : Dp P stk d) (hty : fv.type = .func) (ha : P.frameAlloc s.w = (true, w))
    (hb : funcBind (P.sig fv.ref) (P.beyond w) pos named = .ok vars) :
    step P (st c C ip acc ((flatten named).reverse ++ (pos.reverse ++ fv :: stk)) s ln) =
      .run (st ⟨C, ip, (emb c s.fr).frames⟩ (P.code fv.ref) 0 fv stk ⟨⟨s.fr.globals, [⟨vars, (), 0⟩]⟩, w⟩ ln) := by
  have hex := exec_call hW (fv := fv) (s := s) (c := c) (C := C) (ip := ip) (acc := acc) (p := p) (ln := ln) hnm hpl hd
  have hsz : ip + (Ins.call (pos.length + 256 * named.length)).size P.W = ip + 1 + P.W := by simp; omega
  rw [← hsz] at hex
  simp only [hty, ha, hb] at hex
  exact run_item hi hex

theorem trmCall {k : Nat} (hW : 2 ≤ P.W) (hF : ∀ k, FnOk P conv (P.code k) (defs k)) (S : Sims P conv defs) (H : Shorter P conv defs k) :
    TCall P defs (k + 1) := by
  intro d fv pos named s c C ip acc stk p ln hi hpl hnm hd
  refine .shift (by zero_cut) ?_
  simp only [callV]
  cases hty : fv.type with
  | builtin => exact .const (prim_cut _ _)
  | func =>
    simp only []
    rcases ha : P.frameAlloc s.w with ⟨_ | _, w⟩
    · exact .const rfl
    · simp only []
      cases hb : funcBind (P.sig fv.ref) (P.beyond w) pos named with
      | ok vars =>
        simp only []
        have hcall := call_step hW (c := c) (acc := acc) (ln := ln) (s := s) hi hpl hnm hd hty ha hb
        refine Trm.step hcall ?_
        obtain ⟨wd, ws, hcode, hend⟩ := hF fv.ref
        rw [codeAt_append, Nat.zero_add] at hcode
        refine Trm.bind (fun n => S.ds n false d _ _ _ _ 0 fv stk ln wd hcode.1 hd) (H.d _ false d _ _ _ 0 fv stk ln wd hcode.1 hd) ?_
        rintro _ t1 vm1 ⟨tt1, _, -, acc1, ln1, rfl⟩
        rw [Nat.zero_add]
        have hpf : PatchFn P.W id := ⟨fun _ _ => rfl, fun _ => rfl⟩
        have hc2 := hcode.2
        rw [← List.map_id (compS P.W conv 0 _ _)] at hc2
        refine Trm.bind (fun n => S.s n false d 0 (defs fv.ref).body t1 id _ (P.code fv.ref) _
            acc1 stk ln1 hpf ws hc2 hd)
          (H.s _ false d 0 t1 id _ (P.code fv.ref) _ acc1 stk ln1 hpf ws hc2 hd) ?_
        rintro fl t2 vm2 -
        cases fl <;> exact .const rfl
      | _ => exact .const rfl
  | _ => exact .const rfl

theorem trm_zero {α : Type} {vm : Vm σ} {r : Nat → R σ α} {Post} (h : ∀ n, R.le (r n) (r (n + 1))) (hs : ∀ n, Sim P vm (r n) Post) :
    Trm P 0 vm r := ⟨h, 0, fun n _ => .zero (hs n)⟩

theorem trm_all (hW : 2 ≤ P.W) (hF : ∀ k, FnOk P conv (P.code k) (defs k)) (k : Nat) : Shorter P conv defs k ∧ TCall P defs k := by
  have S := sims P conv defs hW hF
  have M := fun n => mono P defs n
  induction k with
  | zero =>
    refine ⟨⟨?_, ?_, ?_, ?_, ?_⟩, ?_⟩
    · intro t z d fd s f c C base acc stk ln h1 h2 h3 h4
      exact trm_zero (fun n => (M n).2.2.2.2.2.2.2.1 _ _ _ _) fun n => S.s n z d fd t s f c C base acc stk ln h1 h2 h3 h4
    · intro e body els z d fd s f c C base acc stk ln h1 h2 h3 h4
      exact trm_zero (fun n => (M n).2.2.2.2.2.2.2.2.2.1 _ _ _ _ _ _) fun n => S.w n z d fd e body els s f c C base acc stk ln h1 h2 h3 h4
    · intro body els z d fd x s f c C base acc stk ln h1 h2 h3 h4 h5
      exact trm_zero (fun n => (M n).2.2.2.2.2.2.2.2.2.2.1 _ _ _ _ _ _) fun n => S.r n z d fd x body els s f c C base acc stk ln h1 h2 h3 h4 h5
    · intro body els z d fd x s f c C base acc stk ln h1 h2 h3 h4 h5
      exact trm_zero (fun n => (M n).2.2.2.2.2.2.2.2.2.2.2 _ _ _ _ _ _) fun n => S.i n z d fd x body els s f c C base acc stk ln h1 h2 h3 h4 h5
    · intro ds z d s c C base acc stk ln h1 h2 h3
      exact trm_zero (fun n => (M n).2.2.2.2.2.2.1 _ _ _) fun n => S.ds n z d ds s c C base acc stk ln h1 h2 h3
    · intro d fv pos named s c C ip acc stk p ln h1 h2 h3 h4
      exact trm_zero (fun n => (M n).2.2.2.2.2.1 _ _ _ _ _) fun n => S.v n d fv pos named s c C ip acc stk p ln h1 h2 h3 h4
  | succ k ih =>
    have hV := trmCall hW hF S ih.1
    have hS := fun t => trmS hW S hV ih.1 t
    exact ⟨⟨hS, fun e b l => trmWhile S ih.1 (trmE S hV e) (hS b) (hS l), fun b l => trmRange S ih.1 (hS b) (hS l),
      fun b l => trmIn S ih.1 (hS b) (hS l), fun ds => trmDefaults S hV ds⟩, hV⟩

/-- A command whose evaluation is cut off with every fuel: the machine gets to the cut-off points, and they are as far into its run as one
likes. -/
theorem command_trm (hC : Compiled P conv defs) {s : Stmt} (wf : CmdWf P.W conv s) (e : End σ) (k : Nat) :
    ∃ N, ∀ n, N ≤ n → Deep P k (start (emitCommand P.W conv s) [] e) (execS P defs n 0 0 s ⟨⟨e.globals, []⟩, e.w⟩) := by
  have hS := (trm_all (conv := conv) (defs := defs) hC.width hC.fnOk k).1.s s
  have hr := emitS_rep (conv := conv) hC.width 0 s wf.wf Rep.empty (.inr wf.line)
  simp only [List.nil_append, isz_nil] at hr
  have hb : emitCommand P.W conv s = enc P.W (compS P.W conv 0 0 s) := hr.bytes
  have hlen : (emitCommand P.W conv s).length = 0 + isz P.W (compS P.W conv 0 0 s) := by rw [hb]; simp
  have hsz := wf.small
  have hcode : CodeAt P.W (emitCommand P.W conv s) 0 (compS P.W conv 0 0 s) :=
    codeAt_enc [] _ [] (by simpa using hb) (compS_fits hC.width 0 0 s wf.wf (by omega))
  exact (hS false 0 0 ⟨⟨e.globals, []⟩, e.w⟩ id ⟨[], 0, []⟩ (emitCommand P.W conv s) 0 Val.none [] e.line ⟨fun _ _ => rfl, fun _ => rfl⟩ wf.wf
    (by simpa using hcode) ⟨rfl, Nat.zero_le _⟩).ends

/-- Where the machine is after some steps, a state that is far enough is still ahead. -/
theorem far_ahead {a b : Vm σ} (h : Steps P a b) : ∃ k, ∀ c, Far P k a c → Steps P b c ∧ ∃ t, step P b = .run t := by
  induction h with
  | refl s => exact ⟨1, fun c hc => ⟨hc.steps, by obtain ⟨t, h1, -⟩ := hc; exact ⟨t, h1⟩⟩⟩
  | step h _ ih =>
    obtain ⟨k, hk⟩ := ih
    refine ⟨k + 1, fun c hc => ?_⟩
    obtain ⟨t, h1, h2⟩ := hc
    rw [h] at h1
    cases h1
    exact hk c h2

end
end Snek.Lang
