import Verif.Proofs.VmSim
import Verif.Proofs.NumIns
import Verif.Spec.LangWf
/-!
# The machine running compiled code does what the evaluator says: expressions and calls
-/
namespace Snek.Lang
open Store (Val)
open Snek.Vm

section sizes
variable (W : Nat)
@[simp] theorem sz_rel (r) : Ins.size W (.rel r) = 1 := rfl
@[simp] theorem sz_chain (c t) : Ins.size W (.chain c t) = 1 + W := by simp [Ins.size, Ins.operands, leBytes_length]
@[simp] theorem sz_array : Ins.size W .array = 1 := rfl
@[simp] theorem sz_arith (o) : Ins.size W (.arith o) = 1 := rfl
@[simp] theorem sz_assign (a x) : Ins.size W (.assign a x) = 1 + W := by simp [Ins.size, Ins.operands, leBytes_length]
@[simp] theorem sz_string (x) : Ins.size W (.string x) = 1 + W := by simp [Ins.size, Ins.operands, leBytes_length]
@[simp] theorem sz_mk (k n) : Ins.size W (.mk k n) = 1 + W := by simp [Ins.size, Ins.operands, leBytes_length]
@[simp] theorem sz_id (x) : Ins.size W (.id x) = 1 + W := by simp [Ins.size, Ins.operands, leBytes_length]
@[simp] theorem sz_unary (u) : Ins.size W (.unary u) = 1 := rfl
@[simp] theorem sz_call (n) : Ins.size W (.call n) = 1 + W := by simp [Ins.size, Ins.operands, leBytes_length]
@[simp] theorem sz_slice (n) : Ins.size W (.slice n) = 2 := rfl
@[simp] theorem sz_global (x) : Ins.size W (.global x) = 1 + W := by simp [Ins.size, Ins.operands, leBytes_length]
@[simp] theorem sz_del (x) : Ins.size W (.del x) = 1 + W := by simp [Ins.size, Ins.operands, leBytes_length]
@[simp] theorem sz_assert : Ins.size W .assert = 1 := rfl
@[simp] theorem sz_branch (t) : Ins.size W (.branch t) = 1 + W := by simp [Ins.size, Ins.operands, leBytes_length]
@[simp] theorem sz_branchTrue (t) : Ins.size W (.branchTrue t) = 1 + W := by simp [Ins.size, Ins.operands, leBytes_length]
@[simp] theorem sz_branchFalse (t) : Ins.size W (.branchFalse t) = 1 + W := by simp [Ins.size, Ins.operands, leBytes_length]
@[simp] theorem sz_forward (t) : Ins.size W (.forward t) = 1 + W := by simp [Ins.size, Ins.operands, leBytes_length]
@[simp] theorem sz_rangeStart (n d x) : Ins.size W (.rangeStart n d x) = 1 + (W + (1 + W)) := by
  simp [Ins.size, Ins.operands, leBytes_length]; omega
@[simp] theorem sz_rangeStep (n d x) : Ins.size W (.rangeStep n d x) = 1 + (W + (1 + W)) := by
  simp [Ins.size, Ins.operands, leBytes_length]; omega
@[simp] theorem sz_inStep (n d x) : Ins.size W (.inStep n d x) = 1 + (W + (1 + W)) := by
  simp [Ins.size, Ins.operands, leBytes_length]; omega
@[simp] theorem sz_ret : Ins.size W .ret = 1 := rfl
@[simp] theorem sz_line (t) : Ins.size W (.line t) = 1 + W := by simp [Ins.size, Ins.operands, leBytes_length]
@[simp] theorem sz_null : Ins.size W .null = 1 := rfl
@[simp] theorem sz_nop : Ins.size W .nop = 1 := rfl
end sizes

theorem numIns_cases (conv u) : (∃ b, numIns conv u = .int b) ∨ numIns conv u = .num u := by
  have key : ∀ z : BitVec 8, (∃ b, (if feq (intToF z.toInt) u then .int (UInt8.ofBitVec z) else .num u : Ins) = .int b) ∨
      (if feq (intToF z.toInt) u then .int (UInt8.ofBitVec z) else .num u : Ins) = .num u := by
    intro z; split
    · exact .inl ⟨_, rfl⟩
    · exact .inr rfl
  exact key _

theorem numIns_ne_ret (conv u) : numIns conv u ≠ .ret := by
  rcases numIns_cases conv u with ⟨b, h⟩ | h <;> rw [h] <;> simp

theorem numIns_ne_fwd (conv u k) : numIns conv u ≠ .forward k := by
  rcases numIns_cases conv u with ⟨b, h⟩ | h <;> rw [h] <;> simp

section
variable {σ : Type} (P : Prim σ) (conv : BitVec 32 → BitVec 8) (defs : Nat → FunDef)

/-- Goal of operands that stay on the stack. -/
def PostL {α : Type} (c : Ctx) (C : List UInt8) (ip : Nat) (stk : List Val) (s0 : St σ) (onStack : α → List Val) (Q : α → Prop)
    (a : α) (s : St σ) (vm : Vm σ) : Prop :=
  SameTop s0.fr s.fr ∧ Q a ∧ (onStack a ++ stk).length ≤ P.cap ∧ ∃ acc ln, vm = st c C ip acc (onStack a ++ stk) s ln

def SimE (n : Nat) : Prop := ∀ z d e (s : St σ) c C base acc stk p ln, WfE P.W z e →
  CodeAt P.W C base (compE P.W conv p base e) → Dp P stk d →
  Sim P (st c C base acc stk s ln) (evalE P defs n d e s) (PostE P c C (base + isz P.W (compE P.W conv p base e)) p d stk s)

def SimChain (n : Nat) : Prop := ∀ d x r b more (s : St σ) c C base stk vm t, WfE P.W true b → WfChain P.W r more →
  CodeAt P.W C base (compE P.W conv false base b) →
  CodeAt P.W C (base + isz P.W (compE P.W conv false base b))
    (compMore P.W conv (fun c => .chain c t) (base + isz P.W (compE P.W conv false base b)) r more) →
  t = base + isz P.W (compE P.W conv false base b) +
    isz P.W (compMore P.W conv (fun c => .chain c t) (base + isz P.W (compE P.W conv false base b)) r more) →
  Dp P stk d → (d < P.cap → ∃ acc ln, vm = st c C base acc (x :: stk) s ln) → (d = P.cap → vm.pend = true ∧ vm.fr.globals = s.fr.globals ∧ vm.w = s.w) →
  Sim P vm (evalChain P defs n d x r b more s) (PostE P c C t false d stk s)

def SimOpt (n : Nat) : Prop := ∀ z d o (s : St σ) c C base acc stk ln, WfOpt P.W z o →
  CodeAt P.W C base (compOpt P.W conv base o) → Dp P stk d →
  Sim P (st c C base acc stk s ln) (evalOpt P defs n d o s)
    (PostL P c C (base + isz P.W (compOpt P.W conv base o)) stk s Option.toList (fun v => v.isSome = o.isSome))

def SimArgs (n : Nat) : Prop := ∀ z d es (s : St σ) c C base acc stk ln, WfArgs P.W z es →
  CodeAt P.W C base (compArgs P.W conv base es) → Dp P stk d →
  Sim P (st c C base acc stk s ln) (evalArgs P defs n d es s)
    (PostL P c C (base + isz P.W (compArgs P.W conv base es)) stk s List.reverse (fun l => l.length = es.length))

def SimNamed (n : Nat) : Prop := ∀ z d es (s : St σ) c C base acc stk ln, WfNamed P.W z es →
  CodeAt P.W C base (compNamed P.W conv base es) → Dp P stk d →
  Sim P (st c C base acc stk s ln) (evalNamed P defs n d es s)
    (PostL P c C (base + isz P.W (compNamed P.W conv base es)) stk s (fun l => (flatten l).reverse)
      (fun l => l.length = es.length ∧ ∀ q ∈ l, q.1 < 2 ^ 15))

def SimCall (n : Nat) : Prop := ∀ d fv pos named (s : St σ) c C ip acc stk p ln,
  ItemAt P.W C ip (.call (pos.length + 256 * named.length), p) → pos.length < 256 → (∀ q ∈ named, q.1 < 2 ^ 15) →
  Dp P stk d →
  Sim P (st c C ip acc ((flatten named).reverse ++ (pos.reverse ++ fv :: stk)) s ln) (callV P defs n d fv pos named s)
    (PostE P c C (ip + 1 + P.W) p d stk s)

def SimDefaults (n : Nat) : Prop := ∀ z d ds (s : St σ) c C base acc stk ln, WfNamed P.W z ds →
  CodeAt P.W C base (compDefaults P.W conv base ds) → Dp P stk d →
  Sim P (st c C base acc stk s ln) (evalDefaults P defs n d ds s)
    (PostL P c C (base + isz P.W (compDefaults P.W conv base ds)) stk s (fun _ => []) (fun _ => True))

/-- Goal of a statement. -/
def PostS (f : Item → Item) (c : Ctx) (C : List UInt8) (ip : Nat) (stk : List Val) (s0 : St σ)
    (fl : Flow) (s : St σ) (vm : Vm σ) : Prop :=
  SameTop s0.fr s.fr ∧
  match fl with
  | .normal => ∃ acc ln, vm = st c C ip acc stk s ln
  | .brk => ∃ ip acc ln, WAt P.W C ip (f (.forward (fwBreak + 58 * 256), false)) ∧ vm = st c C ip acc stk s ln
  | .cont => ∃ ip acc ln, WAt P.W C ip (f (.forward (fwContinue + 58 * 256), false)) ∧ vm = st c C ip acc stk s ln
  | .ret v => ∃ ip ln, C.length ≤ ip ∧ vm = st c C ip v stk s ln

/-- Resolves only forward references. -/
structure PatchFn (W : Nat) (f : Item → Item) : Prop where
  keep : ∀ it, (∀ k, it.1 ≠ .forward k) → f it = it
  size : ∀ it, (f it).1.size W = it.1.size W

def SimS (n : Nat) : Prop := ∀ z d fd t (s : St σ) f c C base acc stk ln, PatchFn P.W f → WfS P.W z t →
  CodeAt P.W C base ((compS P.W conv fd base t).map f) → Dp P stk d →
  Sim P (st c C base acc stk s ln) (execS P defs n d fd t s)
    (PostS P f c C (base + isz P.W (compS P.W conv fd base t)) stk s)

/-- The code of a function: complete, or without its final return, which cannot be reached normally. -/
def FnOk (C : List UInt8) (f : FunDef) : Prop :=
  WfNamed P.W false f.defaults ∧ WfS P.W false f.body ∧
  let cd := compDefaults P.W conv 0 f.defaults
  let l := cd ++ compS P.W conv 0 (isz P.W cd) f.body
  CodeAt P.W C 0 l ∧
    ((ItemAt P.W C (isz P.W l) (.null, false) ∧ C.length = isz P.W l + 1) ∨ endsRet f.body = true)

end

section
variable {σ : Type} {P : Prim σ} {conv : BitVec 32 → BitVec 8} {defs : Nat → FunDef}

/-- The instructions between comparison links are never returns. -/
theorem WAt.chain {C ip c t p} (h : WAt P.W C ip (.chain c t, p)) : ItemAt P.W C ip (.chain c t, p) := h.item (by simp)

theorem PostE.noPush {c : Ctx} {C ip d stk} {s0 s : St σ} {v vm} (h : PostE P c C ip false d stk s0 v s vm) :
    SameTop s0.fr s.fr ∧ ∃ ln, vm = st c C ip v stk s ln := ⟨h.1, h.2.1 (by simp)⟩

theorem PostE.pushed {c : Ctx} {C ip d stk} {s0 s : St σ} {v vm} (h : PostE P c C ip true d stk s0 v s vm) (hd : d < P.cap) :
    ∃ ln, vm = st c C ip v (v :: stk) s ln := h.2.1 (fun _ => hd)

theorem PostE.full {c : Ctx} {C ip d stk} {s0 s : St σ} {v vm} (h : PostE P c C ip true d stk s0 v s vm) (hd : d = P.cap) :
    vm.pend = true := (h.2.2 rfl hd).1

theorem PostE.stuck {c : Ctx} {C ip d stk} {s0 s : St σ} {v vm} (h : PostE P c C ip true d stk s0 v s vm) (hd : d = P.cap) :
    vm.pend = true ∧ vm.fr.globals = s.fr.globals ∧ vm.w = s.w := h.2.2 rfl hd

theorem PostE.trans {c : Ctx} {C ip p d stk} {s0 s1 s : St σ} {v vm} (h0 : SameTop s0.fr s1.fr)
    (h : PostE P c C ip p d stk s1 v s vm) : PostE P c C ip p d stk s0 v s vm := ⟨h0.trans h.1, h.2⟩

theorem compMore_size (t t' base r more) :
    isz P.W (compMore P.W conv (fun c => .chain c t) base r more) = isz P.W (compMore P.W conv (fun c => .chain c t') base r more) := by
  cases more with
  | nil => simp [compMore]
  | cons r' e rest =>
    have ih := fun b => compMore_size t t' b r' rest
    cases r <;> simp [compMore, ih]

set_option hygiene false in
macro "norm_at" h:ident : tactic =>
  `(tactic| simp only [compE, compMore, compOpt, compArgs, compNamed, compDefaults, codeAt_append, codeAt_cons, codeAt_nil,
    isz_append, isz_cons, isz_nil, Nat.add_zero, and_true, ← Nat.add_assoc, sz_rel, sz_chain, sz_array, sz_arith, sz_assign,
    sz_string, sz_mk, sz_id, sz_unary, sz_call, sz_slice, sz_global, sz_del, sz_assert, sz_branch, sz_branchTrue,
    sz_branchFalse, sz_forward, sz_rangeStart, sz_rangeStep, sz_inStep, sz_ret, sz_line, sz_null, sz_nop] at $h:ident ⊢)

theorem flatten_length (l : List (Nat × Val)) : (flatten l).length = 2 * l.length := by
  induction l with
  | nil => rfl
  | cons q l ih => simp [flatten, ih]; omega

theorem pairUp_flatten (W : Nat) (hW : 2 ≤ W) (l : List (Nat × Val)) (h : ∀ q ∈ l, q.1 < 2 ^ 15) :
    pairUp W (flatten l) = l := by
  induction l with
  | nil => rfl
  | cons q l ih =>
    simp only [flatten, pairUp, getFloat]
    rw [toSoff_int W hW _ (h q (by simp)), ih (fun q hq => h q (by simp [hq]))]

theorem exec_slice (vb ve vt : Option Val) (p : Bool) (ip0 : Nat) (c : Ctx) (C ip acc x stk) (s : St σ) (ln) :
    exec1 P (.slice (UInt8.ofNat (vb.isSome.toNat + 2 * ve.isSome.toNat + 4 * vt.isSome.toNat))) p ip0
      (st c C ip acc (vt.toList ++ (ve.toList ++ (vb.toList ++ x :: stk))) s ln) =
    (st c C ip acc stk s ln).res p (P.slice x vb ve vt s.w) := by
  cases vb <;> cases ve <;> cases vt <;> simp [exec1, Vm.popIf, Vm.pop, st]

theorem dp_opt {stk : List Val} {d : Nat} {o : Option Val} (hd : Dp P stk d) (h : (o.toList ++ stk).length ≤ P.cap) :
    Dp P (o.toList ++ stk) (d + o.isSome.toNat) := by
  have hd1 := hd.1
  cases o with
  | none => exact hd
  | some v => exact ⟨by simp; omega, by simp at h ⊢; omega⟩

theorem simE_step (n : Nat) (hE : SimE P conv defs n) (hC : SimChain P conv defs n) (hO : SimOpt P conv defs n)
    (hA : SimArgs P conv defs n) (hN : SimNamed P conv defs n) (hV : SimCall P defs n) : SimE P conv defs (n + 1) := by
  intro z d e s c C base acc stk p ln wf hc hd
  cases e with
  | num u =>
    norm_at hc
    simp only [evalE]
    exact sim_ok (s := s) (s1 := s) (ln := ln) (ln1 := ln) (hc.item (numIns_ne_ret _ _)) hd (exec_num P conv u wf p _ _) rfl
  | str o =>
    norm_at hc
    simp only [evalE]
    exact sim_ok (s := s) (s1 := s) (ln := ln) (ln1 := ln) (hc.item (by simp)) hd
      (by simp only [sz_string, ← Nat.add_assoc]; rfl) rfl
  | name x =>
    norm_at hc
    have hi := hc.item (by simp)
    simp only [evalE]
    cases hl : loadName P s.fr x with
    | some v =>
      refine sim_ok (s1 := s) hi hd (ln := ln) (ln1 := ln) ?_ rfl
      simp only [exec1, st, emb_loadName, hl, sz_id, ← Nat.add_assoc]
    | none =>
      refine step_err hi (vm1 := st c C (base + Ins.size P.W (.id x)) acc stk s ln) ?_ rfl rfl
      simp only [exec1, st, emb_loadName, hl]
  | unary op e =>
    norm_at hc
    have hi := hc.2.item (by simp)
    cases op <;> simp only [evalE] <;> refine Sim.bind (hE z d e s c C base acc stk false ln wf hc.1 hd) ?_ <;>
      (intro v s' vm' h; obtain ⟨ht, ln', rfl⟩ := h.noPush)
    · exact sim_ok hi hd rfl ht
    · exact sim_prim hi hd rfl ht
    · exact sim_prim hi hd rfl ht
  | binary op a b =>
    norm_at hc
    have hi := hc.2.item (by simp)
    simp only [evalE]
    refine Sim.bind (hE z d a s c C base acc stk true ln wf.1 hc.1.1 hd) ?_
    intro x s1 vm1 h1
    refine Sim.room hd h1.full fun hr => ?_
    obtain ⟨ln1, rfl⟩ := h1.pushed hr
    refine Sim.bind (hE z (d + 1) b s1 c C _ x (x :: stk) false ln1 wf.2 hc.1.2 (hd.push hr x)) ?_
    intro y s2 vm2 h2
    obtain ⟨ht, ln2, rfl⟩ := h2.noPush
    exact sim_prim hi hd rfl (h1.1.trans ht)
  | index a b =>
    norm_at hc
    have hi := hc.2.item (by simp)
    simp only [evalE]
    refine Sim.bind (hE z d a s c C base acc stk true ln wf.1 hc.1.1 hd) ?_
    intro x s1 vm1 h1
    refine Sim.room hd h1.full fun hr => ?_
    obtain ⟨ln1, rfl⟩ := h1.pushed hr
    refine Sim.bind (hE z (d + 1) b s1 c C _ x (x :: stk) false ln1 wf.2 hc.1.2 (hd.push hr x)) ?_
    intro y s2 vm2 h2
    obtain ⟨ht, ln2, rfl⟩ := h2.noPush
    exact sim_prim hi hd rfl (h1.1.trans ht)
  | and a b =>
    norm_at hc
    obtain ⟨h0, h1, h2, h3⟩ := hc
    have hb := h1.item (by simp)
    have hn := h3.item (by simp)
    simp only [evalE]
    refine Sim.bind (hE z d a s c C base acc stk false ln wf.1 h0 hd) ?_
    intro x s1 vm1 k1
    obtain ⟨ht, ln1, rfl⟩ := k1.noPush
    cases htr : P.truth s1.w x with
    | true =>
      refine Sim.steps (step_run hb (vm1 := st c C (base + isz P.W (compE P.W conv false base a) + 1 + P.W) x stk s1 ln1)
        (by simp only [exec1, st, htr, if_true, sz_branchFalse, ← Nat.add_assoc])) ?_
      simp only [if_true]
      refine Sim.post (hE z d b s1 c C _ x stk false ln1 wf.2 h2 hd) ?_
      intro v s2 vm2 k2
      exact sim_nop hn hd (k2.trans ht)
    | false =>
      refine Sim.steps (step_run hb (vm1 := st c C _ x stk s1 ln1)
        (by simp only [exec1, st, htr, if_false, Bool.false_eq_true]; rfl)) ?_
      simp only [if_false, Bool.false_eq_true]
      refine Sim.post (Sim.ok (Post := PostE P c C _ false d stk s) ⟨ht, fun _ => ⟨ln1, rfl⟩, by simp⟩) ?_
      intro v s2 vm2 k2
      exact sim_nop hn hd k2
  | or a b =>
    norm_at hc
    obtain ⟨h0, h1, h2, h3⟩ := hc
    have hb := h1.item (by simp)
    have hn := h3.item (by simp)
    simp only [evalE]
    refine Sim.bind (hE z d a s c C base acc stk false ln wf.1 h0 hd) ?_
    intro x s1 vm1 k1
    obtain ⟨ht, ln1, rfl⟩ := k1.noPush
    cases htr : P.truth s1.w x with
    | false =>
      refine Sim.steps (step_run hb (vm1 := st c C (base + isz P.W (compE P.W conv false base a) + 1 + P.W) x stk s1 ln1)
        (by simp only [exec1, st, htr, if_false, Bool.false_eq_true, sz_branchTrue, ← Nat.add_assoc])) ?_
      simp only [if_false, Bool.false_eq_true]
      refine Sim.post (hE z d b s1 c C _ x stk false ln1 wf.2 h2 hd) ?_
      intro v s2 vm2 k2
      exact sim_nop hn hd (k2.trans ht)
    | true =>
      refine Sim.steps (step_run hb (vm1 := st c C _ x stk s1 ln1)
        (by simp only [exec1, st, htr, if_true]; rfl)) ?_
      simp only [if_true]
      refine Sim.post (Sim.ok (Post := PostE P c C _ false d stk s) ⟨ht, fun _ => ⟨ln1, rfl⟩, by simp⟩) ?_
      intro v s2 vm2 k2
      exact sim_nop hn hd k2
  | cmp a r b more =>
    norm_at hc
    obtain ⟨h0, h1, h2, h3⟩ := hc
    have hn := h3.item (by simp)
    simp only [evalE]
    refine Sim.bind (hE true d a s c C base acc stk true ln wf.1 h0 hd) ?_
    intro x s1 vm1 k1
    generalize ht : base + isz P.W (compE P.W conv true base a) + isz P.W (compE P.W conv false
      (base + isz P.W (compE P.W conv true base a)) b) + isz P.W (compMore P.W conv (fun c => .chain c 0)
      (base + isz P.W (compE P.W conv true base a) + isz P.W (compE P.W conv false
      (base + isz P.W (compE P.W conv true base a)) b)) r more) = t at *
    have ht2 := ht
    rw [compMore_size 0 t] at ht2
    refine Sim.post (hC d x r b more s1 c C _ stk vm1 t wf.2.1 wf.2.2 h1 h2 ht2.symm hd ?_ ?_) ?_
    · intro hr
      obtain ⟨ln1, h⟩ := k1.pushed hr
      exact ⟨x, ln1, h⟩
    · exact k1.stuck
    · intro v s2 vm2 k2
      rw [ht2] at hn ⊢
      exact sim_nop hn hd (k2.trans k1.1)
  | slice a b e t =>
    norm_at hc
    obtain ⟨h0, h1, h2, h3, h4⟩ := hc
    have hi := h4.item (by simp)
    simp only [evalE]
    refine Sim.bind (hE z d a s c C base acc stk true ln wf.1 h0 hd) ?_
    intro x s1 vm1 k1
    refine Sim.room hd k1.full fun hr => ?_
    obtain ⟨ln1, rfl⟩ := k1.pushed hr
    refine Sim.bind (hO z (d + 1) b s1 c C _ x (x :: stk) ln1 wf.2.1 h1 (hd.push hr x)) ?_
    rintro vb s2 vm2 ⟨t2, q2, b2, acc2, ln2, rfl⟩
    refine Sim.bind (hO z _ e s2 c C _ acc2 _ ln2 wf.2.2.1 h2 ?_) ?_
    · exact dp_opt (hd.push hr x) b2
    rintro ve s3 vm3 ⟨t3, q3, b3, acc3, ln3, rfl⟩
    refine Sim.bind (hO z _ t s3 c C _ acc3 _ ln3 wf.2.2.2 h3 ?_) ?_
    · exact dp_opt (dp_opt (hd.push hr x) b2) b3
    rintro vt s4 vm4 ⟨t4, q4, -, acc4, ln4, rfl⟩
    refine sim_prim (acc1 := acc4) (s1 := s4) (ln1 := ln4) hi hd ?_ (((k1.1.trans t2).trans t3).trans t4)
    simp only [sz_slice]
    simp only [sliceFlags, ← q2, ← q3, ← q4]
    exact exec_slice _ _ _ _ _ _ _ _ _ _ _ _ _
  | call f args named =>
    norm_at hc
    obtain ⟨h0, h1, h2, h3⟩ := hc
    have hi := h3.item (by simp)
    simp only [evalE]
    refine Sim.bind (hE z d f s c C base acc stk true ln wf.1 h0 hd) ?_
    intro x s1 vm1 k1
    refine Sim.room hd k1.full fun hr => ?_
    obtain ⟨ln1, rfl⟩ := k1.pushed hr
    refine Sim.bind (hA z (d + 1) args s1 c C _ x (x :: stk) ln1 wf.2.1 h1 (hd.push hr x)) ?_
    rintro pos s2 vm2 ⟨t2, q2, b2, acc2, ln2, rfl⟩
    have hd1 := hd.1
    refine Sim.bind (hN z _ named s2 c C _ acc2 _ ln2 wf.2.2.1 h2
      ⟨by simp [hd1, q2]; omega, by simp [q2] at b2; omega⟩) ?_
    rintro nm s3 vm3 ⟨t3, ⟨q3, q3'⟩, -, acc3, ln3, rfl⟩
    rw [← q2, ← q3] at hi
    exact Sim.mono (hV d x pos nm s3 c C _ acc3 stk p ln3 hi (by have := wf.2.2.2.1; omega) q3' hd)
      (fun v s4 vm4 k4 => k4.trans ((k1.1.trans t2).trans t3))
  | build k es =>
    norm_at hc
    have hi := hc.2.item (by simp)
    simp only [evalE]
    refine Sim.bind (hA z d es s c C base acc stk ln wf.1 hc.1 hd) ?_
    rintro l s1 vm1 ⟨t1, q1, -, acc1, ln1, rfl⟩
    refine sim_prim (acc1 := acc1) (s1 := s1) (ln1 := ln1) hi hd ?_ t1
    simp only [exec1, Vm.popN, st, sz_mk]
    rw [if_pos (by simp [q1]), ← q1]
    simp [← Nat.add_assoc]

theorem simChain_step (n : Nat) (hE : SimE P conv defs n) (hC : SimChain P conv defs n) : SimChain P conv defs (n + 1) := by
  intro d x r b more s c C base stk vm t wb wm h0 h1 ht hd hvm hvf
  simp only [evalChain]
  have hd1 := hd.1
  refine Sim.room hd (fun h => (hvf h).1) fun hr => ?_
  obtain ⟨acc, ln, rfl⟩ := hvm hr
  refine Sim.bind (hE true (d + 1) b s c C base acc (x :: stk) false ln wb h0 (hd.push hr x)) ?_
  intro y s1 vm1 k1
  obtain ⟨t1, ln1, rfl⟩ := k1.noPush
  cases more with
  | nil =>
    norm_at h1
    simp only [compMore, isz_cons, isz_nil, Nat.add_zero, sz_rel] at ht
    have hi := h1.item (by simp)
    refine Sim.bind (Q := PostE P c C t false d stk s) (sim_prim (acc1 := y) hi hd (by rw [ht]; rfl) t1) ?_
    intro v s2 vm2 k2
    exact Sim.ok k2
  | cons r' e rest =>
    obtain ⟨⟨o, rfl⟩, we, wr⟩ := wm
    norm_at h1
    simp only [compMore, isz_cons, isz_append, sz_chain, ← Nat.add_assoc] at ht
    obtain ⟨h2, h3, h4⟩ := h1
    have hi := h2.item (by simp)
    rcases hrel : P.rel (.cmp o) x y s1.w with ⟨_ | v, w⟩
    · simp only [St.prim, R.bind]
      exact step_err hi (vm1 := ⟨C, _, y, stk, emb c s1.fr, ln1, w, false⟩)
        (by simp only [exec1, Vm.pop, st, hrel]; rfl) rfl rfl
    · simp only [St.prim, R.bind]
      cases htr : P.truth w v with
      | true =>
        simp only [if_true]
        refine Sim.steps (vm1 := (st c C (base + isz P.W (compE P.W conv false base b) + 1 + P.W) y stk
          ⟨s1.fr, w⟩ ln1).pushAcc P) (.one ?_) ?_
        · rw [step_item hi]
          simp only [exec1, Vm.pop, st, hrel, htr, if_true, sz_chain, ← Nat.add_assoc]
        · refine Sim.mono (hC d y r' e rest ⟨s1.fr, w⟩ c C _ stk _ t we wr h3 h4 ht hd ?_
            (fun hc => pushAcc_full (by show stk.length = P.cap; omega))) (fun v s4 vm4 k4 => k4.trans t1)
          intro hr
          refine ⟨y, ln1, ?_⟩
          unfold Vm.pushAcc
          rw [if_neg (show ¬ (st c C _ y stk (⟨s1.fr, w⟩ : St σ) ln1).stack.length = P.cap by
            show ¬ stk.length = P.cap; omega)]
          rfl
      | false =>
        simp only [if_false, Bool.false_eq_true]
        refine Sim.steps (step_run hi (vm1 := st c C t v stk ⟨s1.fr, w⟩ ln1) ?_) (Sim.ok ⟨t1, fun _ => ⟨ln1, rfl⟩, by simp⟩)
        simp only [exec1, Vm.pop, st, hrel, htr, if_false, Bool.false_eq_true]

theorem simOpt_step (n : Nat) (hE : SimE P conv defs n) : SimOpt P conv defs (n + 1) := by
  intro z d o s c C base acc stk ln wf hc hd
  cases o with
  | none =>
    simp only [evalOpt]
    exact Sim.ok ⟨rfl, rfl, by have := hd.1; have := hd.2; simp; omega, acc, ln, rfl⟩
  | some e =>
    simp only [evalOpt]
    refine Sim.bind (hE z d e s c C base acc stk true ln wf hc hd) ?_
    intro v s1 vm1 k1
    refine Sim.room hd k1.full fun hr => Sim.ok ⟨k1.1, rfl, by have := hd.1; simp; omega, ?_⟩
    obtain ⟨ln1, rfl⟩ := k1.pushed hr
    exact ⟨v, ln1, rfl⟩

theorem simArgs_step (n : Nat) (hE : SimE P conv defs n) (hA : SimArgs P conv defs n) : SimArgs P conv defs (n + 1) := by
  intro z d es s c C base acc stk ln wf hc hd
  cases es with
  | nil =>
    simp only [evalArgs]
    exact Sim.ok ⟨rfl, rfl, by have := hd.1; have := hd.2; simp; omega, acc, ln, rfl⟩
  | cons e es =>
    norm_at hc
    simp only [evalArgs]
    refine Sim.bind (hE z d e s c C base acc stk true ln wf.1 hc.1 hd) ?_
    intro v s1 vm1 k1
    refine Sim.room hd k1.full fun hr => ?_
    obtain ⟨ln1, rfl⟩ := k1.pushed hr
    refine Sim.bind (hA z (d + 1) es s1 c C _ v (v :: stk) ln1 wf.2 hc.2 (hd.push hr v)) ?_
    rintro l s2 vm2 ⟨t2, q2, b2, acc2, ln2, rfl⟩
    exact Sim.ok ⟨k1.1.trans t2, by simp [q2, Exprs.length], by simpa using b2, acc2, ln2, by simp⟩

theorem simNamed_step (n : Nat) (hE : SimE P conv defs n) (hN : SimNamed P conv defs n) : SimNamed P conv defs (n + 1) := by
  intro z d es s c C base acc stk ln wf hc hd
  cases es with
  | nil =>
    simp only [evalNamed]
    exact Sim.ok ⟨rfl, ⟨rfl, by simp⟩, by have := hd.1; have := hd.2; simp [flatten]; omega, acc, ln, rfl⟩
  | cons x e rest =>
    norm_at hc
    obtain ⟨h0, h1, h2⟩ := hc
    simp only [evalNamed]
    have k0 := sim_ok (s := s) (s1 := s) (s0 := s) (ln := ln) (ln1 := ln) (P := P) (c := c) (acc := acc)
      (ip1 := base + Ins.size P.W (numIns conv (intToF x))) (h0.item (numIns_ne_ret _ _)) hd (exec_num P conv _ (intToF_ne_negz x wf.2.1) true _ _) rfl
    obtain ⟨vm0, hs, k0⟩ := k0
    refine Sim.steps hs ?_
    refine Sim.room hd k0.full fun hr => ?_
    obtain ⟨ln0, rfl⟩ := k0.pushed hr
    refine Sim.bind (hE z (d + 1) e s c C _ _ (.num (intToF x) :: stk) true ln0 wf.2.2.1 h1 (hd.push hr _)) ?_
    intro v s1 vm1 k1
    refine Sim.room (hd.push hr (.num (intToF x))) k1.full fun hr2 => ?_
    obtain ⟨ln1, rfl⟩ := k1.pushed hr2
    refine Sim.bind (hN z (d + 2) rest s1 c C _ v _ ln1 wf.2.2.2 h2 ((hd.push hr _).push hr2 v)) ?_
    rintro l s2 vm2 ⟨t2, ⟨q2, q3⟩, b2, acc2, ln2, rfl⟩
    refine Sim.ok ⟨k1.1.trans t2, ⟨by simp [q2, Named.length], ?_⟩, by simpa [flatten] using b2, acc2, ln2, by simp [flatten]⟩
    intro q hq
    rcases List.mem_cons.1 hq with rfl | hq
    · exact wf.2.1
    · exact q3 q hq

theorem simDefaults_step (n : Nat) (hE : SimE P conv defs n) (hD : SimDefaults P conv defs n) :
    SimDefaults P conv defs (n + 1) := by
  intro z d es s c C base acc stk ln wf hc hd
  cases es with
  | nil =>
    simp only [evalDefaults]
    exact Sim.ok ⟨rfl, trivial, by have := hd.1; have := hd.2; simp; omega, acc, ln, rfl⟩
  | cons x e rest =>
    norm_at hc
    obtain ⟨h0, h1, h2⟩ := hc
    have hi := h1.item (by simp)
    simp only [evalDefaults]
    refine Sim.bind (hE z d e s c C base acc stk false ln wf.2.2.1 h0 hd) ?_
    intro v s1 vm1 k1
    obtain ⟨t1, ln1, rfl⟩ := k1.noPush
    have ta := top_assignId s1.fr P .named x v s1.w
    unfold St.assign
    rcases ha : assignId P .named x v s1.fr s1.w with ⟨_ | r, fr, w⟩
    · simp only [R.bind]
      exact step_err hi (vm1 := ⟨C, _, v, stk, emb c fr, ln1, w, false⟩)
        (by simp only [exec1, if_neg wf.1, st, emb_assignId, ha]; rfl) rfl rfl
    · simp only [R.bind]
      rw [ha] at ta
      refine Sim.steps (step_run hi (vm1 := st c C _ r stk ⟨fr, w⟩ ln1) (by
        simp only [exec1, if_neg wf.1, st, emb_assignId, ha]; rfl)) ?_
      simp only [sz_assign, ← Nat.add_assoc]
      refine Sim.mono (hD z d rest ⟨fr, w⟩ c C _ r stk ln1 wf.2.2.2 h2 hd) ?_
      rintro _ s3 vm3 ⟨t3, _, h⟩
      exact ⟨(t1.trans ta).trans t3, trivial, h⟩

theorem endsRet_flow (n d fd : Nat) (t : Stmt) (s s' : St σ) (h : endsRet t = true)
    (he : execS P defs n d fd t s = .ok .normal s') : False := by
  cases t with
  | ret e =>
    cases n with
    | zero => simp [execS] at he
    | succ n =>
      cases e with
      | none => simp [execS] at he
      | some e =>
        simp only [execS] at he
        cases h2 : evalE P defs n d e s <;> simp [h2, R.bind] at he
  | seq a b =>
    cases n with
    | zero => simp [execS] at he
    | succ n =>
      simp only [execS] at he
      cases h2 : execS P defs n d fd a s with
      | ok f s1 =>
        simp only [h2, R.bind] at he
        cases f with
        | normal => exact endsRet_flow n d fd b s1 s' h he
        | _ => simp at he
      | _ => simp [h2, R.bind] at he
  | _ => simp [endsRet] at h

/-- Returning from a function. -/
theorem ret_step {c : Ctx} {C ip0 p acc stk d} {s : St σ} {t : St σ} {C' ip ln}
    (hi : ItemAt P.W C ip0 (.call n, p)) (hd : Dp P stk d) (hip : C'.length ≤ ip) (hne : t.fr.frames.isEmpty = false) :
    ∃ vm', Steps P (st ⟨C, ip0, (emb c s.fr).frames⟩ C' ip acc stk t ln) vm' ∧
      PostE P c C (ip0 + 1 + P.W) p d stk s acc ⟨⟨t.fr.globals, s.fr.frames⟩, t.w⟩ vm' := by
  obtain ⟨f, fs, hf⟩ : ∃ f fs, t.fr.frames = f :: fs := by
    cases h : t.fr.frames with
    | nil => simp [h] at hne
    | cons f fs => exact ⟨f, fs, rfl⟩
  have hp : decide (128 ≤ (C[ip0]?.getD 0).toNat) = p := by rw [← fetch_push P.W, hi.2]
  have hs : step P (st ⟨C, ip0, (emb c s.fr).frames⟩ C' ip acc stk t ln) =
      if p then .run ((st c C (ip0 + 1 + P.W) acc stk ⟨⟨t.fr.globals, s.fr.frames⟩, t.w⟩ ln).pushAcc P)
      else .run (st c C (ip0 + 1 + P.W) acc stk ⟨⟨t.fr.globals, s.fr.frames⟩, t.w⟩ ln) := by
    unfold step
    rw [if_neg (show ¬ (st ⟨C, ip0, (emb c s.fr).frames⟩ C' ip acc stk t ln).ip <
      (st ⟨C, ip0, (emb c s.fr).frames⟩ C' ip acc stk t ln).code.length from Nat.not_lt.2 hip)]
    have e : framePop (st ⟨C, ip0, (emb c s.fr).frames⟩ C' ip acc stk t ln).fr =
        (some (C, ip0), emb c ⟨t.fr.globals, s.fr.frames⟩) := by
      simp [framePop, st, emb, hf]
    simp only [e]
    have e2 : ip0 + P.W + 1 = ip0 + 1 + P.W := by omega
    rw [e2]
    cases p with
    | true => rw [if_pos (by simpa using hp)]; rfl
    | false => rw [if_neg (by simpa using hp)]; rfl
  cases p with
  | false => exact ⟨_, .one hs, rfl, fun _ => ⟨ln, rfl⟩, by simp⟩
  | true =>
    refine ⟨_, .one hs, rfl, fun hr => ⟨ln, ?_⟩, fun _ hc => pushAcc_full (by show stk.length = P.cap; rw [hd.1, hc])⟩
    have := hr rfl
    have := hd.1
    unfold Vm.pushAcc
    rw [if_neg (show ¬ (st c C (ip0 + 1 + P.W) acc stk (⟨⟨t.fr.globals, s.fr.frames⟩, t.w⟩ : St σ) ln).stack.length = P.cap by
      show ¬ stk.length = P.cap; omega)]
    rfl

/-- The call instruction. -/
theorem exec_call (hW : 2 ≤ P.W) {d fv pos named} {s : St σ} {c C ip acc stk p ln} (hnm : ∀ q ∈ named, q.1 < 2 ^ 15) (hpl : pos.length < 256)
    (hd : Dp P stk d) :
    exec1 P (.call (pos.length + 256 * named.length)) p ip (st c C (ip + 1 + P.W) acc
      ((flatten named).reverse ++ (pos.reverse ++ fv :: stk)) s ln) =
      (match fv.type with
      | .func =>
        match P.frameAlloc s.w with
        | (false, w) => .error (st c C (ip + 1 + P.W) acc stk ⟨s.fr, w⟩ ln)
        | (true, w) =>
          match funcBind (P.sig fv.ref) (P.beyond w) pos named with
          | .ok vars =>
            .ok (st ⟨C, ip, (emb c s.fr).frames⟩ (P.code fv.ref) 0 fv stk
              ⟨⟨s.fr.globals, [⟨vars, (), 0⟩]⟩, w⟩ ln) false
          | _ => .error (st c C (ip + 1 + P.W) acc stk ⟨s.fr, w⟩ ln)
      | .builtin => (st c C (ip + 1 + P.W) acc stk s ln).res p (P.callBuiltin fv pos (flatten named) s.w)
      | _ => .error (st c C (ip + 1 + P.W) acc stk s ln)) := by
  have e1 : (pos.length + 256 * named.length) % 256 = pos.length := by omega
  have e2 : (pos.length + 256 * named.length) / 256 = named.length := by omega
  have hl : pos.length + 2 * named.length = ((flatten named).reverse ++ pos.reverse).length := by
    simp [flatten_length]; omega
  have eS : (flatten named).reverse ++ (pos.reverse ++ fv :: stk) = ((flatten named).reverse ++ pos.reverse) ++ fv :: stk := by simp
  simp only [exec1, callIns, Vm.popN, e1, e2]
  rw [if_pos (show pos.length + 2 * named.length ≤ (st c C (ip + 1 + P.W) acc
    ((flatten named).reverse ++ (pos.reverse ++ fv :: stk)) s ln).stack.length by simp [st, flatten_length]; omega)]
  simp only [st, eS]
  rw [hl, List.take_left, List.drop_left]
  simp only [List.reverse_append, List.reverse_reverse, Vm.pop, List.take_left, List.drop_left,
    pairUp_flatten P.W hW named hnm]
  cases fv.type <;> simp only []
  · cases P.frameAlloc s.w with
    | mk b w =>
      cases b <;> simp only []
      cases funcBind (P.sig fv.ref) (P.beyond w) pos named <;> simp only []
      rfl

theorem simCall_step (n : Nat) (hW : 2 ≤ P.W) (hF : ∀ k, FnOk P conv (P.code k) (defs k)) (hD : SimDefaults P conv defs n)
    (hS : SimS P conv defs n) : SimCall P defs (n + 1) := by
  intro d fv pos named s c C ip acc stk p ln hi hpl hnm hd
  have hex := exec_call hW (fv := fv) (s := s) (c := c) (C := C) (ip := ip) (acc := acc) (p := p) (ln := ln) hnm hpl hd
  have hsz : ip + (Ins.call (pos.length + 256 * named.length)).size P.W = ip + 1 + P.W := by simp; omega
  have hex' := hex
  rw [← hsz] at hex'
  simp only [callV]
  cases hty : fv.type with
  | builtin =>
    rw [hty] at hex'
    rw [← hsz]
    exact sim_prim (acc1 := acc) hi hd hex' rfl
  | func =>
    rw [hty] at hex'
    simp only [] at hex' ⊢
    rcases ha : P.frameAlloc s.w with ⟨_ | _, w⟩
    · rw [ha] at hex'
      exact step_err hi hex' rfl rfl
    · rw [ha] at hex'
      simp only [] at hex' ⊢
      cases hb : funcBind (P.sig fv.ref) (P.beyond w) pos named with
      | ok vars =>
        rw [hb] at hex'
        simp only [] at hex' ⊢
        refine Sim.steps (step_run hi hex') ?_
        obtain ⟨wd, ws, hcode, hend⟩ := hF fv.ref
        rw [codeAt_append, Nat.zero_add] at hcode
        refine Sim.bind (hD false d _ _ _ _ 0 fv stk ln wd hcode.1 hd) ?_
        rintro _ t1 vm1 ⟨tt1, _, -, acc1, ln1, rfl⟩
        rw [Nat.zero_add]
        have ht1 : t1.fr.frames.isEmpty = false := by rw [← tt1.isEmpty]; rfl
        have hpf : PatchFn P.W id := ⟨fun _ _ => rfl, fun _ => rfl⟩
        have hsim := hS false d 0 (defs fv.ref).body t1 id ⟨C, ip, (emb c s.fr).frames⟩ (P.code fv.ref) _
          acc1 stk ln1 hpf ws (by rw [List.map_id]; exact hcode.2) hd
        have hnorm := fun s' h => endsRet_flow (P := P) (defs := defs) n d 0 (defs fv.ref).body t1 s' h
        simp only [List.nil_append]
        revert hsim hnorm
        cases hx : execS P defs n d 0 (defs fv.ref).body t1 with
        | time => exact fun h _ => h
        | over => exact fun h _ => h
        | err g w => exact fun h _ => h
        | ok fl t2 =>
          rintro ⟨vm2, hst, tt2, h2⟩ hnorm
          have ht2 : t2.fr.frames.isEmpty = false := by rw [← tt2.isEmpty]; exact ht1
          simp only [R.bind]
          refine Sim.steps hst ?_
          cases fl with
          | normal =>
            obtain ⟨acc2, ln2, rfl⟩ := h2
            rcases hend with ⟨hnull, hlen⟩ | hend
            · simp only [isz_append] at hnull hlen
              refine Sim.steps (step_run hnull rfl) ?_
              exact ret_step hi hd (Nat.le_of_eq hlen) ht2
            · exact (hnorm t2 hend rfl).elim
          | ret v =>
            obtain ⟨ip2, ln2, hip2, rfl⟩ := h2
            exact ret_step hi hd hip2 ht2
          | brk =>
            obtain ⟨ip2, acc2, ln2, hw, rfl⟩ := h2
            exact step_err (hw.item (by simp)) rfl rfl rfl
          | cont =>
            obtain ⟨ip2, acc2, ln2, hw, rfl⟩ := h2
            exact step_err (hw.item (by simp)) rfl rfl rfl
      | _ =>
        rw [hb] at hex'
        exact step_err hi hex' rfl rfl
  | _ =>
    rw [hty] at hex'
    exact step_err hi hex' rfl rfl

end
end Snek.Lang
