import Verif.Proofs.CompSim
/-!
# The machine running compiled code does what the evaluator says: statements
-/
namespace Snek.Lang
open Store (Val)
open Snek.Vm

variable {σ : Type} {P : Prim σ} {conv : BitVec 32 → BitVec 8} {defs : Nat → FunDef} {W : Nat}

/-! ## Expression code has no forward references -/

mutual
theorem compE_map {f : Item → Item} (hf : PatchFn W f) (p base) (e : Expr) :
    (compE W conv p base e).map f = compE W conv p base e := by
  cases e with
  | num u => simp [compE, hf.keep (numIns conv u, p) (fun k => numIns_ne_fwd conv u k)]
  | str o => simp [compE, hf.keep]
  | name x => simp [compE, hf.keep]
  | unary op e => simp [compE, hf.keep, compE_map hf _ _ e]
  | binary op a b => simp [compE, hf.keep, compE_map hf _ _ a, compE_map hf _ _ b]
  | and a b => simp [compE, hf.keep, compE_map hf _ _ a, compE_map hf _ _ b]
  | or a b => simp [compE, hf.keep, compE_map hf _ _ a, compE_map hf _ _ b]
  | cmp a r b more =>
    have h := fun t b2 => compMore_map hf (fun c => .chain c t) (fun c => hf.keep _ (by simp)) b2 r more
    simp [compE, hf.keep, compE_map hf _ _ a, compE_map hf _ _ b, h]
  | index a i => simp [compE, hf.keep, compE_map hf _ _ a, compE_map hf _ _ i]
  | slice a s e t =>
    simp [compE, hf.keep, compE_map hf _ _ a, compOpt_map hf _ s, compOpt_map hf _ e, compOpt_map hf _ t]
  | call g args named => simp [compE, hf.keep, compE_map hf _ _ g, compArgs_map hf _ args, compNamed_map hf _ named]
  | build k es => simp [compE, hf.keep, compArgs_map hf _ es]

theorem compMore_map {f : Item → Item} (hf : PatchFn W f) (lk : Vm.CmpOp → Ins) (hl : ∀ c, f (lk c, true) = (lk c, true))
    (base r) (m : Chain) : (compMore W conv lk base r m).map f = compMore W conv lk base r m := by
  cases m with
  | nil => simp [compMore, hf.keep]
  | cons r' e rest => cases r <;> simp [compMore, hl, compE_map hf _ _ e, compMore_map hf lk hl _ r' rest]

theorem compOpt_map {f : Item → Item} (hf : PatchFn W f) (base) (o : OptE) :
    (compOpt W conv base o).map f = compOpt W conv base o := by
  cases o with
  | none => simp [compOpt]
  | some e => simp [compOpt, compE_map hf _ _ e]

theorem compArgs_map {f : Item → Item} (hf : PatchFn W f) (base) (es : Exprs) :
    (compArgs W conv base es).map f = compArgs W conv base es := by
  cases es with
  | nil => simp [compArgs]
  | cons e es => simp [compArgs, compE_map hf _ _ e, compArgs_map hf _ es]

theorem compNamed_map {f : Item → Item} (hf : PatchFn W f) (base) (es : Named) :
    (compNamed W conv base es).map f = compNamed W conv base es := by
  cases es with
  | nil => simp [compNamed]
  | cons x e es =>
    simp [compNamed, compE_map hf _ _ e, compNamed_map hf _ es, hf.keep (numIns conv (intToF x), true) (fun k => numIns_ne_fwd conv (intToF x) k)]
end

theorem patchItem_fn (k t : Nat) : PatchFn W (patchItem k t) where
  keep it h := by
    unfold patchItem
    split
    · rename_i f hf; exact absurd hf (h f)
    · rfl
  size it := patchItem_size k t it

theorem PatchFn.comp {f g : Item → Item} (hf : PatchFn W f) (hg : PatchFn W g) : PatchFn W (f ∘ g) where
  keep it h := by simp only [Function.comp]; rw [hg.keep it h]; exact hf.keep it h
  size it := by simp only [Function.comp]; rw [hf.size, hg.size]

theorem PatchFn.isz {f : Item → Item} (hf : PatchFn W f) (l : List Item) : isz W (l.map f) = isz W l := by
  induction l with
  | nil => rfl
  | cons x l ih => simp [ih, hf.size]

/-! ## Statements -/

section
variable (P conv defs)

def SimElse (n : Nat) : Prop := ∀ d fd els (s : St σ) f c C base acc stk ln E, PatchFn P.W f → WfElse P.W els →
  CodeAt P.W C base ((compElse P.W conv fd base els).map f) →
  f (.forward (fwIf + 58 * 256), false) = (.branch E, false) → E = base + isz P.W (compElse P.W conv fd base els) →
  Dp P stk d →
  Sim P (st c C (elseOff P.W base els) acc stk s ln) (execElse P defs n d fd els s) (PostS P f c C E stk s)

def SimWhile (n : Nat) : Prop := ∀ z d fd e body els (s : St σ) f c C base acc stk ln, PatchFn P.W f →
  WfS P.W z (.whil e body els) → CodeAt P.W C base ((compS P.W conv fd base (.whil e body els)).map f) → Dp P stk d →
  Sim P (st c C base acc stk s ln) (execWhile P defs n d fd e body els s)
    (PostS P f c C (base + isz P.W (compS P.W conv fd base (.whil e body els))) stk s)

/-- The code of a `for` loop from its step instruction on. -/
def loopCode (fd b0 : Nat) (stepIns : Nat → Ins) (body els : Stmt) : List Item :=
  let b1 := b0 + (1 + (P.W + (1 + P.W)))
  let cb := compS P.W conv (fd + 1) b1 body
  let b2 := b1 + isz P.W cb + (1 + P.W)
  let ce := compS P.W conv fd b2 els
  (stepIns b2, false) ::
    ((cb.map (patchItem fwContinue b0)).map (patchItem fwBreak (b2 + isz P.W ce)) ++ (.branch b0, false) :: ce)

def SimRange (n : Nat) : Prop := ∀ z d fd x body els (s : St σ) f c C b0 acc stk ln, PatchFn P.W f →
  WfS P.W true body → WfS P.W z els →
  CodeAt P.W C b0 ((loopCode P conv fd b0 (fun t => .rangeStep t (UInt8.ofNat fd) x) body els).map f) → Dp P stk d →
  Sim P (st c C b0 acc stk s ln) (execRange P defs n d fd x body els s)
    (PostS P f c C (b0 + isz P.W (loopCode P conv fd b0 (fun t => .rangeStep t (UInt8.ofNat fd) x) body els)) stk s)

def SimIn (n : Nat) : Prop := ∀ z d fd x body els (s : St σ) f c C b0 acc stk ln, PatchFn P.W f →
  WfS P.W true body → WfS P.W z els →
  CodeAt P.W C b0 ((loopCode P conv fd b0 (fun t => .inStep t (UInt8.ofNat fd) x) body els).map f) → Dp P stk d →
  Sim P (st c C b0 acc stk s ln) (execIn P defs n d fd x body els s)
    (PostS P f c C (b0 + isz P.W (loopCode P conv fd b0 (fun t => .inStep t (UInt8.ofNat fd) x) body els)) stk s)
end

theorem PostS.trans {f : Item → Item} {c : Ctx} {C ip stk} {s0 s1 s : St σ} {fl vm} (h0 : SameTop s0.fr s1.fr)
    (h : PostS P f c C ip stk s1 fl s vm) : PostS P f c C ip stk s0 fl s vm := ⟨h0.trans h.1, h.2⟩

set_option hygiene false in
macro "normS_at" h:ident : tactic =>
  `(tactic| simp only [compS, compElse, compE_map hf, compArgs_map hf, List.map_append, List.map_cons, List.map_nil, List.map_map,
    hf.isz, isz_patch,
    codeAt_append, codeAt_cons, codeAt_nil, isz_append, isz_cons, isz_nil, Nat.add_zero, and_true, ← Nat.add_assoc, sz_rel, sz_chain,
    sz_array, sz_arith, sz_assign, sz_string, sz_mk, sz_id, sz_unary, sz_call, sz_slice, sz_global, sz_del, sz_assert, sz_branch,
    sz_branchTrue, sz_branchFalse, sz_forward, sz_rangeStart, sz_rangeStep, sz_inStep, sz_ret, sz_line, sz_null, sz_nop] at $h:ident ⊢)

/-- An assignment instruction. -/
theorem sim_assign {c : Ctx} {C ip v stk} {s : St σ} {ln op x} (hx : x ≠ 0) (h : ItemAt P.W C ip (.assign op x, false)) :
    Sim P (st c C ip v stk s ln) (s.assign P op x v)
      (fun r s' vm' => SameTop s.fr s'.fr ∧ vm' = st c C (ip + 1 + P.W) r stk s' ln) := by
  have ta := top_assignId s.fr P op x v s.w
  unfold St.assign
  rcases ha : assignId P op x v s.fr s.w with ⟨_ | r, fr, w⟩
  · exact step_err h (vm1 := ⟨C, _, v, stk, emb c fr, ln, w, false⟩)
      (by simp only [exec1, if_neg hx, st, emb_assignId, ha]; rfl) rfl rfl
  · rw [ha] at ta
    refine Sim.steps (step_run h (vm1 := st c C _ r stk ⟨fr, w⟩ ln) (by
      simp only [exec1, if_neg hx, st, emb_assignId, ha]; rfl)) (Sim.ok ⟨ta, ?_⟩)
    simp [← Nat.add_assoc]

theorem skipElse {f : Item → Item} (hf : PatchFn P.W f) {c : Ctx} {C base acc stk} {s : St σ} {ln fd els E}
    (hc : CodeAt P.W C base ((compElse P.W conv fd base els).map f))
    (hfw : f (.forward (fwIf + 58 * 256), false) = (.branch E, false))
    (hE : E = base + isz P.W (compElse P.W conv fd base els)) :
    ∃ ln', Steps P (st c C base acc stk s ln) (st c C E acc stk s ln') := by
  cases els with
  | none => subst hE; exact ⟨ln, .refl _⟩
  | els t =>
    simp only [compElse, List.map_cons, codeAt_cons, hfw] at hc
    exact ⟨ln, step_run (hc.1.item (by simp)) rfl⟩
  | elif l e t rest =>
    simp only [compElse, List.map_cons, codeAt_cons, hfw, hf.keep (.line l, false) (by simp)] at hc
    refine ⟨l, (step_run (hc.1.item (by simp)) rfl).trans ?_⟩
    exact step_run (hc.2.1.item (by simp)) rfl

theorem popN_st {c : Ctx} {C ip acc stk} {s : St σ} {ln} (l : List Val) (k : List Val → Vm σ → ExR σ) :
    (st c C ip acc (l.reverse ++ stk) s ln).popN l.length k = k l (st c C ip acc stk s ln) := by
  have h1 : (st c C ip acc (l.reverse ++ stk) s ln).stack = l.reverse ++ stk := rfl
  unfold Vm.popN
  rw [if_pos (by rw [h1]; simp), h1, ← List.length_reverse, List.take_left, List.drop_left, List.reverse_reverse]
  rfl

theorem simS_step (n : Nat) (hW : 2 ≤ P.W) (hE : SimE P conv defs n) (hA : SimArgs P conv defs n) (hS : SimS P conv defs n)
    (hEl : SimElse P conv defs n) (hWh : SimWhile P conv defs n) (hR : SimRange P conv defs n) (hI : SimIn P conv defs n) :
    SimS P conv defs (n + 1) := by
  intro z d fd t s f c C base acc stk ln hf wf hc hd
  cases t with
  | skip => simp only [execS]; exact Sim.ok ⟨rfl, acc, ln, rfl⟩
  | line l =>
    normS_at hc
    simp only [execS]
    rw [hf.keep _ (by simp)] at hc
    have hi := hc.item (by simp)
    refine Sim.steps (step_run hi (vm1 := st c C (base + 1 + P.W) acc stk s l) ?_) (Sim.ok ⟨rfl, acc, l, rfl⟩)
    simp only [sz_line, ← Nat.add_assoc]; rfl
  | seq a b =>
    normS_at hc
    simp only [execS]
    refine Sim.bind (hS z d fd a s f c C base acc stk ln hf wf.1 hc.1 hd) ?_
    rintro fl s1 vm1 ⟨t1, h1⟩
    cases fl with
    | normal =>
      obtain ⟨acc1, ln1, rfl⟩ := h1
      exact Sim.mono (hS z d fd b s1 f c C _ acc1 stk ln1 hf wf.2 hc.2 hd) (fun _ _ _ k => k.trans t1)
    | brk => exact Sim.ok ⟨t1, h1⟩
    | cont => exact Sim.ok ⟨t1, h1⟩
    | ret v => exact Sim.ok ⟨t1, h1⟩
  | expr e =>
    normS_at hc
    simp only [execS]
    refine Sim.bind (hE z d e s c C base acc stk false ln wf hc hd) ?_
    intro v s1 vm1 k1
    obtain ⟨t1, ln1, rfl⟩ := k1.noPush
    exact Sim.ok ⟨t1, v, ln1, rfl⟩
  | assign op x e =>
    normS_at hc
    rw [hf.keep _ (by simp)] at hc
    simp only [execS]
    refine Sim.bind (hE z d e s c C base acc stk false ln wf.2.2 hc.1 hd) ?_
    intro v s1 vm1 k1
    obtain ⟨t1, ln1, rfl⟩ := k1.noPush
    refine Sim.bind (sim_assign wf.1 (hc.2.item (by simp))) ?_
    rintro r s2 vm2 ⟨t2, rfl⟩
    exact Sim.ok ⟨t1.trans t2, r, ln1, rfl⟩
  | assignIdx op a i e =>
    normS_at hc
    rw [hf.keep _ (by simp)] at hc
    obtain ⟨h0, h1, h2, h3⟩ := hc
    have hi := h3.item (by simp)
    simp only [execS]
    refine Sim.bind (hE z d a s c C base acc stk true ln wf.1 h0 hd) ?_
    intro x s1 vm1 k1
    refine Sim.room hd k1.full fun hr => ?_
    obtain ⟨ln1, rfl⟩ := k1.pushed hr
    refine Sim.bind (hE z (d + 1) i s1 c C _ x (x :: stk) true ln1 wf.2.1 h1 (hd.push hr x)) ?_
    intro y s2 vm2 k2
    refine Sim.room (hd.push hr x) k2.full fun hr2 => ?_
    obtain ⟨ln2, rfl⟩ := k2.pushed hr2
    refine Sim.bind (hE z (d + 2) e s2 c C _ y (y :: x :: stk) false ln2 wf.2.2 h2 ((hd.push hr x).push hr2 y)) ?_
    intro v s3 vm3 k3
    obtain ⟨t3, ln3, rfl⟩ := k3.noPush
    have hp := sim_prim (P := P) (c := c) (acc := v) (s := s3) (ln := ln3) (stk0 := y :: x :: stk) (s0 := s) (acc1 := v) (s1 := s3) (ln1 := ln3) (ip1 := base + isz P.W (compE P.W conv true base a) +
      isz P.W (compE P.W conv true (base + isz P.W (compE P.W conv true base a)) i) +
      isz P.W (compE P.W conv false (base + isz P.W (compE P.W conv true base a) +
      isz P.W (compE P.W conv true (base + isz P.W (compE P.W conv true base a)) i)) e) + 1 + P.W)
      (p := false) (o := P.storeIdx op x y v s3.w) hi hd (by simp only [sz_assign, ← Nat.add_assoc]; rfl)
      ((k1.1.trans k2.1).trans t3)
    refine Sim.bind hp ?_
    intro r s4 vm4 k4
    obtain ⟨t4, ln4, rfl⟩ := k4.noPush
    exact Sim.ok ⟨t4, r, ln4, rfl⟩
  | ret e =>
    cases e with
    | none =>
      normS_at hc
      rw [hf.keep _ (by simp), hf.keep _ (by simp)] at hc
      simp only [execS]
      refine Sim.steps (step_run (hc.1.item (by simp)) rfl) ?_
      rcases hc.2 with hi | hi
      · exact Sim.steps (step_run hi (vm1 := st c C C.length Val.none stk s ln) rfl) (Sim.ok ⟨rfl, _, ln, Nat.le_refl _, rfl⟩)
      · exact Sim.ok ⟨rfl, _, ln, hi.2, rfl⟩
    | some e =>
      normS_at hc
      rw [hf.keep _ (by simp)] at hc
      simp only [execS]
      refine Sim.bind (hE z d e s c C base acc stk false ln wf hc.1 hd) ?_
      intro v s1 vm1 k1
      obtain ⟨t1, ln1, rfl⟩ := k1.noPush
      rcases hc.2 with hi | hi
      · exact Sim.steps (step_run hi (vm1 := st c C C.length v stk s1 ln1) rfl) (Sim.ok ⟨t1, _, ln1, Nat.le_refl _, rfl⟩)
      · exact Sim.ok ⟨t1, _, ln1, hi.2, rfl⟩
  | brk =>
    normS_at hc
    simp only [execS]
    exact Sim.ok ⟨rfl, base, acc, ln, hc, rfl⟩
  | cont =>
    normS_at hc
    simp only [execS]
    exact Sim.ok ⟨rfl, base, acc, ln, hc, rfl⟩
  | global x =>
    normS_at hc
    rw [hf.keep _ (by simp)] at hc
    have hi := hc.item (by simp)
    simp only [execS]
    split
    · rename_i h
      exact step_err hi (vm1 := ⟨C, _, acc, stk, emb c (markGlobal s.fr x (P.varAlloc s.w).1), ln, (P.varAlloc s.w).2.2, false⟩)
        (by simp only [exec1, st, emb_markGlobal, emb_makesLocal, if_pos h]; rfl) rfl rfl
    · rename_i h
      refine Sim.steps (step_run hi (vm1 := st c C (base + 1 + P.W) acc stk
        ⟨markGlobal s.fr x (P.varAlloc s.w).1, (P.varAlloc s.w).2.2⟩ ln) ?_) (Sim.ok ⟨top_markGlobal _ _ _, acc, ln, rfl⟩)
      simp only [exec1, st, emb_markGlobal, emb_makesLocal, if_neg h, sz_global, ← Nat.add_assoc]
  | del x =>
    normS_at hc
    rw [hf.keep _ (by simp)] at hc
    have hi := hc.item (by simp)
    simp only [execS]
    refine Sim.steps (step_run hi (vm1 := st c C (base + 1 + P.W) acc stk ⟨(idDel P.varBytes s.fr x).2, s.w⟩ ln) ?_)
      (Sim.ok ⟨top_idDel _ _ _, acc, ln, rfl⟩)
    simp only [exec1, if_neg wf.1, st, emb_idDel, sz_del, ← Nat.add_assoc]
  | delIdx a i =>
    normS_at hc
    rw [hf.keep _ (by simp)] at hc
    obtain ⟨h0, h1, h2⟩ := hc
    have hi := h2.item (by simp)
    simp only [execS]
    refine Sim.bind (hE z d a s c C base acc stk true ln wf.1 h0 hd) ?_
    intro x s1 vm1 k1
    refine Sim.room hd k1.full fun hr => ?_
    obtain ⟨ln1, rfl⟩ := k1.pushed hr
    refine Sim.bind (hE z (d + 1) i s1 c C _ x (x :: stk) false ln1 wf.2 h1 (hd.push hr x)) ?_
    intro y s2 vm2 k2
    obtain ⟨t2, ln2, rfl⟩ := k2.noPush
    rcases hx : P.delIdx x y s2.w with ⟨_ | _, w⟩
    · exact step_err hi (vm1 := ⟨C, _, y, stk, emb c s2.fr, ln2, w, false⟩)
        (by simp only [exec1, if_true, Vm.pop, st, hx]; rfl) rfl rfl
    · refine Sim.steps (step_run hi (vm1 := st c C _ Val.none stk ⟨s2.fr, w⟩ ln2)
        (by simp only [exec1, if_true, Vm.pop, st, hx]; rfl)) (Sim.ok ⟨k1.1.trans t2, Val.none, ln2, ?_⟩)
      simp only [sz_del, ← Nat.add_assoc]
  | assert e =>
    normS_at hc
    rw [hf.keep _ (by simp)] at hc
    have hi := hc.2.item (by simp)
    simp only [execS]
    refine Sim.bind (hE z d e s c C base acc stk false ln wf hc.1 hd) ?_
    intro v s1 vm1 k1
    obtain ⟨t1, ln1, rfl⟩ := k1.noPush
    cases htr : P.truth s1.w v with
    | true =>
      simp only [if_true]
      refine Sim.steps (step_run hi (vm1 := st c C _ Val.none stk s1 ln1)
        (by simp only [exec1, st, htr, if_true]; rfl)) (Sim.ok ⟨t1, _, ln1, rfl⟩)
    | false =>
      simp only [if_false, Bool.false_eq_true]
      exact step_err hi (vm1 := st c C _ v stk s1 ln1) (by simp only [exec1, st, htr, if_false, Bool.false_eq_true]; rfl) rfl rfl
  | ifs e t els =>
    normS_at hc
    rw [hf.keep (.branchFalse _, false) (by simp)] at hc
    obtain ⟨h0, h1, h2, h3⟩ := hc
    have hi := h1.item (by simp)
    have hf' := hf.comp (patchItem_fn (W := P.W) fwIf (base + isz P.W (compE P.W conv false base e) + 1 + P.W +
      isz P.W (compS P.W conv fd (base + isz P.W (compE P.W conv false base e) + 1 + P.W) t) +
      isz P.W (compElse P.W conv fd (base + isz P.W (compE P.W conv false base e) + 1 + P.W +
      isz P.W (compS P.W conv fd (base + isz P.W (compE P.W conv false base e) + 1 + P.W) t)) els)))
    have hfw : ∀ E, (f ∘ patchItem fwIf E) (.forward (fwIf + 58 * 256), false) = (.branch E, false) := by
      intro E
      simp only [Function.comp]
      exact hf.keep (.branch E, false) (by simp)
    simp only [sz_branchFalse, hf'.isz, ← Nat.add_assoc] at h2 h3
    simp only [execS]
    refine Sim.bind (hE z d e s c C base acc stk false ln wf.1 h0 hd) ?_
    intro v s1 vm1 k1
    obtain ⟨t1, ln1, rfl⟩ := k1.noPush
    cases htr : P.truth s1.w v with
    | true =>
      refine Sim.steps (step_run hi (vm1 := st c C (base + isz P.W (compE P.W conv false base e) + 1 + P.W) v stk s1 ln1)
        (by simp only [exec1, st, htr, if_true, sz_branchFalse, ← Nat.add_assoc])) ?_
      simp only [if_true]
      refine Sim.post (hS true d fd t s1 _ c C _ v stk ln1 hf' wf.2.1 h2 hd) ?_
      rintro fl s2 vm2 ⟨t2, h⟩
      cases fl with
      | normal =>
        obtain ⟨acc2, ln2, rfl⟩ := h
        obtain ⟨ln3, hs⟩ := skipElse hf' (c := c) (acc := acc2) (stk := stk) (s := s2) (ln := ln2) h3 (hfw _) rfl
        exact ⟨_, hs, t1.trans t2, acc2, ln3, rfl⟩
      | brk => exact ⟨_, .refl _, t1.trans t2, h⟩
      | cont => exact ⟨_, .refl _, t1.trans t2, h⟩
      | ret v => exact ⟨_, .refl _, t1.trans t2, h⟩
    | false =>
      refine Sim.steps (step_run hi (vm1 := st c C _ v stk s1 ln1)
        (by simp only [exec1, st, htr, if_false, Bool.false_eq_true]; rfl)) ?_
      simp only [if_false, Bool.false_eq_true]
      refine Sim.mono (hEl d fd els s1 _ c C _ v stk ln1 _ hf' wf.2.2 h3 (hfw _) rfl hd) ?_
      rintro fl s2 vm2 ⟨t2, h⟩
      cases fl with
      | normal => exact ⟨t1.trans t2, h⟩
      | brk => exact ⟨t1.trans t2, h⟩
      | cont => exact ⟨t1.trans t2, h⟩
      | ret v => exact ⟨t1.trans t2, h⟩
  | whil e body els =>
    simp only [execS]
    exact hWh z d fd e body els s f c C base acc stk ln hf wf hc hd
  | forRange x args body els =>
    have hsplit : compS P.W conv fd base (.forRange x args body els) =
        compArgs P.W conv base args ++ (.rangeStart args.length (UInt8.ofNat fd) x, false) ::
          loopCode P conv fd (base + isz P.W (compArgs P.W conv base args) + (1 + (P.W + (1 + P.W))))
            (fun t => .rangeStep t (UInt8.ofNat fd) x) body els := by
      simp only [compS, loopCode]
    rw [hsplit] at hc ⊢
    simp only [List.map_append, List.map_cons, codeAt_append, codeAt_cons, compArgs_map hf, hf.size, sz_rangeStart] at hc
    rw [hf.keep (.rangeStart _ _ _, false) (by simp)] at hc
    obtain ⟨h0, h1, h2⟩ := hc
    have hi := h1.item (by simp)
    simp only [execS, isz_append, isz_cons, sz_rangeStart, ← Nat.add_assoc]
    simp only [← Nat.add_assoc] at h2
    refine Sim.bind (hA z d args s c C base acc stk ln wf.2.2.2.1 h0 hd) ?_
    rintro l s1 vm1 ⟨t1, q1, -, acc1, ln1, rfl⟩
    have tr := top_rangeStart s1.fr P x (UInt8.ofNat fd) l s1.w
    have hex : exec1 P (.rangeStart args.length (UInt8.ofNat fd) x) false (base + isz P.W (compArgs P.W conv base args))
        (st c C (base + isz P.W (compArgs P.W conv base args) + (1 + (P.W + (1 + P.W)))) acc1 (l.reverse ++ stk) s1 ln1) =
        match rangeStart P x (UInt8.ofNat fd) l s1.fr s1.w with
        | (true, fr, w) => .ok (st c C (base + isz P.W (compArgs P.W conv base args) + (1 + (P.W + (1 + P.W)))) acc1 stk ⟨fr, w⟩ ln1) false
        | (false, fr, w) => .error (st c C (base + isz P.W (compArgs P.W conv base args) + (1 + (P.W + (1 + P.W)))) acc1 stk ⟨fr, w⟩ ln1) := by
      simp only [exec1]
      rw [← q1, popN_st]
      simp only [st, emb_rangeStart]
      rcases rangeStart P x (UInt8.ofNat fd) l s1.fr s1.w with ⟨_ | _, fr, w⟩ <;> rfl
    rcases hrs : rangeStart P x (UInt8.ofNat fd) l s1.fr s1.w with ⟨_ | _, fr, w⟩
    · rw [hrs] at hex
      exact step_err hi (by simpa only [sz_rangeStart] using hex) rfl rfl
    · rw [hrs] at hex tr
      refine Sim.steps (step_run hi (by simpa only [sz_rangeStart] using hex)) ?_
      simp only [← Nat.add_assoc]
      exact Sim.mono (hR z d fd x body els ⟨fr, w⟩ f c C _ acc1 stk ln1 hf wf.2.2.2.2.1 wf.2.2.2.2.2 h2 hd)
        (fun _ _ _ k => k.trans (t1.trans tr))
  | forIn x e body els =>
    have hsplit : compS P.W conv fd base (.forIn x e body els) =
        compE P.W conv false base e ++ (.assign .plain (forTmp P.W (UInt8.ofNat fd) 0), false) :: (numIns conv 0, false) ::
          (.assign .plain (forTmp P.W (UInt8.ofNat fd) 1), false) ::
          loopCode P conv fd (base + isz P.W (compE P.W conv false base e) + (1 + P.W) + (numIns conv 0).size P.W + (1 + P.W))
            (fun t => .inStep t (UInt8.ofNat fd) x) body els := by
      simp only [compS, loopCode]
    have hft : ∀ i, i < 2 → forTmp P.W (UInt8.ofNat fd) i ≠ 0 := by
      intro i hi
      unfold forTmp
      have h1 := (UInt8.ofNat fd).toNat_lt
      have h2 : 2 ^ 16 ≤ 2 ^ (8 * P.W) := Nat.pow_le_pow_right (by omega) (by omega)
      omega
    rw [hsplit] at hc ⊢
    simp only [List.map_append, List.map_cons, codeAt_append, codeAt_cons, compE_map hf, hf.size, sz_assign] at hc
    rw [hf.keep (.assign _ _, false) (by simp), hf.keep (.assign _ _, false) (by simp),
      hf.keep (numIns conv 0, false) (fun k => numIns_ne_fwd conv 0 k)] at hc
    obtain ⟨h0, h1, h2, h3, h4⟩ := hc
    simp only [execS, isz_append, isz_cons, sz_assign, ← Nat.add_assoc]
    simp only [← Nat.add_assoc] at h2 h3 h4
    refine Sim.bind (hE z d e s c C base acc stk false ln wf.2.2.1 h0 hd) ?_
    intro v s1 vm1 k1
    obtain ⟨t1, ln1, rfl⟩ := k1.noPush
    refine Sim.bind (sim_assign (hft 0 (by omega)) (h1.item (by simp))) ?_
    rintro r s2 vm2 ⟨t2, rfl⟩
    have hn := h2.item (numIns_ne_ret conv 0)
    refine Sim.steps (step_run hn (exec_num P conv 0 (by decide) false _ _)) ?_
    refine Sim.bind (sim_assign (s := s2) (c := c) (C := C) (v := Val.zero) (stk := stk) (ln := ln1) (hft 1 (by omega)) (h3.item (by simp))) ?_
    rintro r2 s3 vm3 ⟨t3, rfl⟩
    exact Sim.mono (hI z d fd x body els s3 f c C _ r2 stk ln1 hf wf.2.2.2.1 wf.2.2.2.2 h4 hd)
        (fun _ _ _ k => k.trans ((t1.trans t2).trans t3))

theorem simElse_step (n : Nat) (hE : SimE P conv defs n) (hS : SimS P conv defs n) (hEl : SimElse P conv defs n) :
    SimElse P conv defs (n + 1) := by
  intro d fd els s f c C base acc stk ln E hf wf hc hfw hE' hd
  cases els with
  | none =>
    simp only [execElse, elseOff]
    exact Sim.ok ⟨rfl, acc, ln, by subst hE'; rfl⟩
  | els t =>
    simp only [compElse, List.map_cons, codeAt_cons, hfw, sz_branch] at hc
    simp only [compElse, isz_cons, sz_forward, ← Nat.add_assoc] at hE'
    simp only [← Nat.add_assoc] at hc
    simp only [execElse, elseOff, ← Nat.add_assoc]
    subst hE'
    exact hS true d fd t s f c C _ acc stk ln hf wf hc.2 hd
  | elif l e t rest =>
    normS_at hc
    rw [hf.keep (.line l, false) (by simp), hfw, hf.keep (.branchFalse _, false) (by simp)] at hc
    simp only [compElse, isz_cons, isz_append, sz_forward, sz_line, sz_branchFalse, ← Nat.add_assoc] at hE'
    simp only [sz_line, sz_branch, sz_branchFalse, ← Nat.add_assoc] at hc
    obtain ⟨_, _, h0, h1, h2, h3⟩ := hc
    have hi := h1.item (by simp)
    simp only [execElse, elseOff, ← Nat.add_assoc]
    refine Sim.bind (hE true d e s c C _ acc stk false ln wf.2.1 h0 hd) ?_
    intro v s1 vm1 k1
    obtain ⟨t1, ln1, rfl⟩ := k1.noPush
    cases htr : P.truth s1.w v with
    | true =>
      refine Sim.steps (step_run hi (vm1 := st c C (base + 1 + P.W + 1 + P.W +
          isz P.W (compE P.W conv false (base + 1 + P.W + 1 + P.W) e) + 1 + P.W) v stk s1 ln1)
        (by simp only [exec1, st, htr, if_true, sz_branchFalse, ← Nat.add_assoc])) ?_
      simp only [if_true]
      refine Sim.post (hS true d fd t s1 _ c C _ v stk ln1 hf wf.2.2.1 h2 hd) ?_
      rintro fl s2 vm2 ⟨t2, h⟩
      cases fl with
      | normal =>
        obtain ⟨acc2, ln2, rfl⟩ := h
        obtain ⟨ln3, hs⟩ := skipElse hf (c := c) (acc := acc2) (stk := stk) (s := s2) (ln := ln2) h3 hfw hE'
        exact ⟨_, hs, t1.trans t2, acc2, ln3, rfl⟩
      | brk => exact ⟨_, .refl _, t1.trans t2, h⟩
      | cont => exact ⟨_, .refl _, t1.trans t2, h⟩
      | ret v => exact ⟨_, .refl _, t1.trans t2, h⟩
    | false =>
      refine Sim.steps (step_run hi (vm1 := st c C _ v stk s1 ln1)
        (by simp only [exec1, st, htr, if_false, Bool.false_eq_true]; rfl)) ?_
      simp only [if_false, Bool.false_eq_true]
      exact Sim.mono (hEl d fd rest s1 f c C _ v stk ln1 E hf wf.2.2.2 h3 hfw hE' hd) (fun _ _ _ k => k.trans t1)

/-- The patches of a loop body. -/
theorem loop_fn {f : Item → Item} (hf : PatchFn W f) (top E : Nat) :
    PatchFn W (f ∘ patchItem fwBreak E ∘ patchItem fwContinue top) ∧
    (f ∘ patchItem fwBreak E ∘ patchItem fwContinue top) (.forward (fwBreak + 58 * 256), false) = (.branch E, false) ∧
    (f ∘ patchItem fwBreak E ∘ patchItem fwContinue top) (.forward (fwContinue + 58 * 256), false) = (.branch top, false) :=
  ⟨hf.comp ((patchItem_fn _ _).comp (patchItem_fn _ _)), hf.keep (.branch E, false) (by simp),
    hf.keep (.branch top, false) (by simp)⟩

theorem simWhile_step (n : Nat) (hE : SimE P conv defs n) (hS : SimS P conv defs n) (hWh : SimWhile P conv defs n) :
    SimWhile P conv defs (n + 1) := by
  intro z d fd e body els s f c C base acc stk ln hf wf hc hd
  have hc0 := hc
  have hend : base + isz P.W (compS P.W conv fd base (.whil e body els)) =
      base + isz P.W (compE P.W conv false base e) + 1 + P.W +
      isz P.W (compS P.W conv fd (base + isz P.W (compE P.W conv false base e) + 1 + P.W) body) + 1 + P.W +
      isz P.W (compS P.W conv fd (base + isz P.W (compE P.W conv false base e) + 1 + P.W +
      isz P.W (compS P.W conv fd (base + isz P.W (compE P.W conv false base e) + 1 + P.W) body) + 1 + P.W) els) := by
    simp only [compS, isz_append, isz_cons, isz_patch, sz_branchFalse, sz_branch, ← Nat.add_assoc]
  rw [hend]
  normS_at hc
  rw [hf.keep (.branchFalse _, false) (by simp), hf.keep (.branch _, false) (by simp)] at hc
  obtain ⟨h0, h1, h2, h3, h4⟩ := hc
  generalize hb2 : base + isz P.W (compE P.W conv false base e) + 1 + P.W +
    isz P.W (compS P.W conv fd (base + isz P.W (compE P.W conv false base e) + 1 + P.W) body) + 1 + P.W = b2 at *
  obtain ⟨hf', hfb, hfc⟩ := loop_fn (W := P.W) hf base (b2 + isz P.W (compS P.W conv fd b2 els))
  simp only [sz_branchFalse, sz_branch, hf'.isz, ← Nat.add_assoc] at h2 h3 h4
  have hi := h1.item (by simp)
  have hj := h3.item (by simp)
  simp only [execWhile]
  refine Sim.bind (hE z d e s c C _ acc stk false ln wf.1 h0 hd) ?_
  intro v s1 vm1 k1
  obtain ⟨t1, ln1, rfl⟩ := k1.noPush
  cases htr : P.truth s1.w v with
  | true =>
    refine Sim.steps (step_run hi (vm1 := st c C (base + isz P.W (compE P.W conv false base e) + 1 + P.W) v stk s1 ln1)
      (by simp only [exec1, st, htr, if_true, sz_branchFalse, ← Nat.add_assoc])) ?_
    simp only [if_true]
    refine Sim.bind (hS true d fd body s1 _ c C _ v stk ln1 hf' wf.2.1 h2 hd) ?_
    rintro fl s2 vm2 ⟨t2, h⟩
    have again : ∀ acc ln, Sim P (st c C base acc stk s2 ln) (execWhile P defs n d fd e body els s2)
        (PostS P f c C (b2 + isz P.W (compS P.W conv fd b2 els)) stk s) := by
      intro acc ln
      rw [← hend]
      exact Sim.mono (hWh z d fd e body els s2 f c C base acc stk ln hf wf hc0 hd) (fun _ _ _ k => k.trans (t1.trans t2))
    cases fl with
    | normal =>
      obtain ⟨acc2, ln2, rfl⟩ := h
      exact Sim.steps (step_run hj rfl) (again acc2 ln2)
    | brk =>
      obtain ⟨ip, acc2, ln2, hw, rfl⟩ := h
      rw [hfb] at hw
      exact Sim.steps (step_run (hw.item (by simp)) rfl) (Sim.ok ⟨t1.trans t2, acc2, ln2, rfl⟩)
    | cont =>
      obtain ⟨ip, acc2, ln2, hw, rfl⟩ := h
      rw [hfc] at hw
      exact Sim.steps (step_run (hw.item (by simp)) rfl) (again acc2 ln2)
    | ret v => exact Sim.ok ⟨t1.trans t2, h⟩
  | false =>
    refine Sim.steps (step_run hi (vm1 := st c C b2 v stk s1 ln1)
      (by simp only [exec1, st, htr, if_false, Bool.false_eq_true])) ?_
    simp only [if_false, Bool.false_eq_true]
    rw [hb2] at h4
    exact Sim.mono (hS z d fd els s1 f c C b2 v stk ln1 hf wf.2.2 h4 hd) (fun _ _ _ k => k.trans t1)

/-- One turn of a `for` loop. -/
theorem loop_turn {n d fd b0 body els f} {z : Bool} {stepIns : Nat → Ins} (hf : PatchFn P.W f) (hd : Dp P stk d)
    (hsz : ∀ t, (stepIns t).size P.W = 1 + (P.W + (1 + P.W))) (hnf : ∀ t k, stepIns t ≠ .forward k) (hnr : ∀ t, stepIns t ≠ .ret)
    (hS : SimS P conv defs n) (wb : WfS P.W true body) (we : WfS P.W z els)
    (hc : CodeAt P.W C b0 ((loopCode P conv fd b0 stepIns body els).map f)) :
    ∃ b2, ItemAt P.W C b0 (stepIns b2, false) ∧
      (∀ (s : St σ) acc ln, Sim P (st c C b2 acc stk s ln) (execS P defs n d fd els s)
        (PostS P f c C (b0 + isz P.W (loopCode P conv fd b0 stepIns body els)) stk s)) ∧
      (∀ (s : St σ) acc ln (k : St σ → R σ Flow) (s0 : St σ), SameTop s0.fr s.fr →
        (∀ acc s2 ln, SameTop s0.fr s2.fr →
          Sim P (st c C b0 acc stk s2 ln) (k s2) (PostS P f c C (b0 + isz P.W (loopCode P conv fd b0 stepIns body els)) stk s0)) →
        Sim P (st c C (b0 + (1 + (P.W + (1 + P.W)))) acc stk s ln)
          ((execS P defs n d (fd + 1) body s).bind fun f s =>
            match f with
            | .normal | .cont => k s
            | .brk => .ok .normal s
            | .ret v => .ok (.ret v) s)
          (PostS P f c C (b0 + isz P.W (loopCode P conv fd b0 stepIns body els)) stk s0)) := by
  have hend0 : isz P.W (loopCode P conv fd b0 stepIns body els) = 
      (1 + (P.W + (1 + P.W))) + isz P.W (compS P.W conv (fd + 1) (b0 + (1 + (P.W + (1 + P.W)))) body) + (1 + P.W) +
      isz P.W (compS P.W conv fd (b0 + (1 + (P.W + (1 + P.W))) +
        isz P.W (compS P.W conv (fd + 1) (b0 + (1 + (P.W + (1 + P.W)))) body) + (1 + P.W)) els) := by
    simp only [loopCode, isz_append, isz_cons, isz_patch, hsz, sz_branch]; omega
  unfold loopCode at hc
  simp only [List.map_append, List.map_cons, List.map_map, codeAt_append, codeAt_cons, hf.size, hsz] at hc
  rw [hf.keep (stepIns _, false) (hnf _), hf.keep (.branch _, false) (by simp)] at hc
  generalize hb1 : b0 + (1 + (P.W + (1 + P.W))) = b1 at *
  generalize hb2 : b1 + isz P.W (compS P.W conv (fd + 1) b1 body) + (1 + P.W) = b2 at *
  obtain ⟨hf', hfb, hfc⟩ := loop_fn (W := P.W) hf b0 (b2 + isz P.W (compS P.W conv fd b2 els))
  obtain ⟨h0, h1, h2, h3⟩ := hc
  simp only [hf'.isz, sz_branch, hb2] at h2 h3
  have hend : b0 + isz P.W (loopCode P conv fd b0 stepIns body els) = b2 + isz P.W (compS P.W conv fd b2 els) := by
    rw [hend0]; omega
  refine ⟨b2, h0.item (hnr _), ?_, ?_⟩
  · intro s acc ln
    rw [hend]
    exact hS z d fd els s f c C b2 acc stk ln hf we h3 hd
  · intro s acc ln k s0 ht hk
    refine Sim.bind (hS true d (fd + 1) body s _ c C b1 acc stk ln hf' wb h1 hd) ?_
    rintro fl s2 vm2 ⟨t2, h⟩
    cases fl with
    | normal =>
      obtain ⟨acc2, ln2, rfl⟩ := h
      exact Sim.steps (step_run (h2.item (by simp)) rfl) (hk acc2 s2 ln2 (ht.trans t2))
    | brk =>
      obtain ⟨ip, acc2, ln2, hw, rfl⟩ := h
      rw [hfb] at hw
      rw [hend]
      exact Sim.steps (step_run (hw.item (by simp)) rfl) (Sim.ok ⟨ht.trans t2, acc2, ln2, rfl⟩)
    | cont =>
      obtain ⟨ip, acc2, ln2, hw, rfl⟩ := h
      rw [hfc] at hw
      exact Sim.steps (step_run (hw.item (by simp)) rfl) (hk acc2 s2 ln2 (ht.trans t2))
    | ret v => exact Sim.ok ⟨ht.trans t2, h⟩

theorem simRange_step (n : Nat) (hS : SimS P conv defs n) (hR : SimRange P conv defs n) : SimRange P conv defs (n + 1) := by
  intro z d fd x body els s f c C b0 acc stk ln hf wb we hc hd
  obtain ⟨b2, hi, hels, hbody⟩ := loop_turn (c := c) hf hd (by simp) (by simp) (by simp) hS wb we hc
  have ts := top_rangeStep s.fr P x (UInt8.ofNat fd)
  simp only [execRange]
  rcases hr : rangeStep P x (UInt8.ofNat fd) s.fr with ⟨r, fr⟩
  rw [hr] at ts
  cases r with
  | error =>
    exact step_err hi (vm1 := st c C _ acc stk ⟨fr, s.w⟩ ln) (by simp only [exec1, st, emb_rangeStep, hr]; rfl) rfl rfl
  | stop =>
    refine Sim.steps (step_run hi (vm1 := st c C b2 acc stk ⟨fr, s.w⟩ ln) (by simp only [exec1, st, emb_rangeStep, hr])) ?_
    exact Sim.mono (hels ⟨fr, s.w⟩ acc ln) (fun _ _ _ k => k.trans ts)
  | go =>
    refine Sim.steps (step_run hi (vm1 := st c C (b0 + (1 + (P.W + (1 + P.W)))) acc stk ⟨fr, s.w⟩ ln)
      (by simp only [exec1, st, emb_rangeStep, hr, sz_rangeStep])) ?_
    refine hbody ⟨fr, s.w⟩ acc ln (fun s => execRange P defs n d fd x body els s) s ts ?_
    intro acc2 s2 ln2 t2
    exact Sim.mono (hR z d fd x body els s2 f c C b0 acc2 stk ln2 hf wb we hc hd) (fun _ _ _ k => k.trans t2)

theorem simIn_step (n : Nat) (hS : SimS P conv defs n) (hI : SimIn P conv defs n) : SimIn P conv defs (n + 1) := by
  intro z d fd x body els s f c C b0 acc stk ln hf wb we hc hd
  obtain ⟨b2, hi, hels, hbody⟩ := loop_turn (c := c) hf hd (by simp) (by simp) (by simp) hS wb we hc
  have ts := top_inStep s.fr P x (UInt8.ofNat fd) s.w
  simp only [execIn]
  rcases hr : inStep P x (UInt8.ofNat fd) s.fr s.w with ⟨r, fr, w⟩
  rw [hr] at ts
  cases r with
  | error =>
    exact step_err hi (vm1 := st c C _ acc stk ⟨fr, w⟩ ln) (by simp only [exec1, st, emb_inStep, hr]; rfl) rfl rfl
  | stop =>
    refine Sim.steps (step_run hi (vm1 := st c C b2 acc stk ⟨fr, w⟩ ln) (by simp only [exec1, st, emb_inStep, hr])) ?_
    exact Sim.mono (hels ⟨fr, w⟩ acc ln) (fun _ _ _ k => k.trans ts)
  | go =>
    refine Sim.steps (step_run hi (vm1 := st c C (b0 + (1 + (P.W + (1 + P.W)))) acc stk ⟨fr, w⟩ ln)
      (by simp only [exec1, st, emb_inStep, hr, sz_inStep])) ?_
    refine hbody ⟨fr, w⟩ acc ln (fun s => execIn P defs n d fd x body els s) s ts ?_
    intro acc2 s2 ln2 t2
    exact Sim.mono (hI z d fd x body els s2 f c C b0 acc2 stk ln2 hf wb we hc hd) (fun _ _ _ k => k.trans t2)

/-- All parts of the simulation, for every fuel. -/
theorem sim_all (hW : 2 ≤ P.W) (hF : ∀ k, FnOk P conv (P.code k) (defs k)) (n : Nat) :
    SimE P conv defs n ∧ SimChain P conv defs n ∧ SimOpt P conv defs n ∧ SimArgs P conv defs n ∧ SimNamed P conv defs n ∧
    SimCall P defs n ∧ SimDefaults P conv defs n ∧ SimS P conv defs n ∧ SimElse P conv defs n ∧ SimWhile P conv defs n ∧
    SimRange P conv defs n ∧ SimIn P conv defs n := by
  induction n with
  | zero =>
    refine ⟨?_, ?_, ?_, ?_, ?_, ?_, ?_, ?_, ?_, ?_, ?_, ?_⟩
    · intro z d e s c C base acc stk p ln _ _ _; simp only [evalE]; exact ⟨_, .refl _, rfl, rfl⟩
    · intro d x r b more s c C base stk vm t _ _ _ _ _ hd hv hf; simp only [evalChain]; by_cases h : d < P.cap
      · obtain ⟨acc, ln, rfl⟩ := hv h; exact ⟨_, .refl _, rfl, rfl⟩
      · exact ⟨_, .refl _, (hf (by have := hd.2; omega)).2⟩
    · intro z d e s c C base acc stk ln _ _ _; simp only [evalOpt]; exact ⟨_, .refl _, rfl, rfl⟩
    · intro z d e s c C base acc stk ln _ _ _; simp only [evalArgs]; exact ⟨_, .refl _, rfl, rfl⟩
    · intro z d e s c C base acc stk ln _ _ _; simp only [evalNamed]; exact ⟨_, .refl _, rfl, rfl⟩
    · intro d fv pos named s c C ip acc stk p ln _ _ _ _; simp only [callV]; exact ⟨_, .refl _, rfl, rfl⟩
    · intro z d e s c C base acc stk ln _ _ _; simp only [evalDefaults]; exact ⟨_, .refl _, rfl, rfl⟩
    · intro z d fd t s f c C base acc stk ln _ _ _ _; simp only [execS]; exact ⟨_, .refl _, rfl, rfl⟩
    · intro d fd els s f c C base acc stk ln E _ _ _ _ _ _; simp only [execElse]; exact ⟨_, .refl _, rfl, rfl⟩
    · intro z d fd e body els s f c C base acc stk ln _ _ _ _; simp only [execWhile]; exact ⟨_, .refl _, rfl, rfl⟩
    · intro z d fd x body els s f c C base acc stk ln _ _ _ _ _; simp only [execRange]; exact ⟨_, .refl _, rfl, rfl⟩
    · intro z d fd x body els s f c C base acc stk ln _ _ _ _ _; simp only [execIn]; exact ⟨_, .refl _, rfl, rfl⟩
  | succ n ih =>
    obtain ⟨hE, hC, hO, hA, hN, hV, hD, hS, hEl, hWh, hR, hI⟩ := ih
    exact ⟨simE_step n hE hC hO hA hN hV, simChain_step n hE hC, simOpt_step n hE, simArgs_step n hE hA, simNamed_step n hE hN,
      simCall_step n hW hF hD hS, simDefaults_step n hE hD, simS_step n hW hE hA hS hEl hWh hR hI, simElse_step n hE hS hEl,
      simWhile_step n hE hS hWh, simRange_step n hS hR, simIn_step n hS hI⟩

end Snek.Lang
