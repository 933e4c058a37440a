import Verif.Proofs.CompRun
/-!
# The machine's states as states of the evaluator
-/
namespace Snek.Lang
open Store (Val)
open Snek.Vm

variable {σ γ : Type}

section act
variable (fr : Frames Val γ)

/-- The same activations: only variables of the running function and globals may differ. -/
def SameAct (a b : Frames Val γ) : Prop :=
  b.frames.tail = a.frames.tail ∧ b.frames.map (fun f => (f.code, f.ip)) = a.frames.map (fun f => (f.code, f.ip))

theorem SameAct.rfl' {a : Frames Val γ} : SameAct a a := ⟨rfl, rfl⟩
theorem SameAct.trans {a b c : Frames Val γ} (h1 : SameAct a b) (h2 : SameAct b c) : SameAct a c :=
  ⟨h2.1.trans h1.1, h2.2.trans h1.2⟩

theorem act_put (b : Bool) (v : List (Var Val)) : SameAct fr (putFrame fr b v) := by
  unfold SameAct putFrame; cases b <;> simp; cases h : fr.frames <;> simp [h]

theorem act_set (l : VLoc) (v : Val) : SameAct fr (fr.set l v) := by
  unfold SameAct; cases l <;> simp [Frames.set]; cases h : fr.frames <;> simp [h]

theorem act_varLookup (b : Bool) (x : Nat) (i o : Bool) : SameAct fr (variableLookup fr b x i o).2 := by
  unfold variableLookup
  split
  · exact .rfl'
  · split
    · exact .rfl'
    · split
      · exact act_put _ _ _
      · exact .rfl'

theorem act_frameLookup (x : Nat) (i o g : Bool) : SameAct fr (frameLookup fr x i o g).2 := by
  unfold frameLookup
  have h := act_varLookup fr false x i o
  rcases hh : variableLookup fr false x i o with ⟨l, fr'⟩
  rw [hh] at h
  cases l with
  | none => exact h.trans (act_varLookup _ _ _ _ _)
  | some l => simp only []; split; exact h.trans (act_varLookup _ _ _ _ _); exact h

theorem act_idStore (x : Nat) (v : Val) (o g : Bool) : SameAct fr (idStore fr x v o g).2 := by
  unfold idStore idRef
  have h := act_frameLookup fr x true o g
  rcases hh : frameLookup fr x true o g with ⟨l, fr'⟩
  rw [hh] at h
  cases l with
  | none => exact h
  | some l => exact h.trans (act_set _ _ _)

theorem act_storeId (P : Prim σ) (w : σ) (x : Nat) (v : Val) : SameAct fr (storeId P fr w x v).2.1 := by
  unfold storeId; exact act_idStore _ _ _ _ _

theorem act_assignId (P : Prim σ) (a : AOp) (x : Nat) (v : Val) (w : σ) : SameAct fr (assignId P a x v fr w).2.1 := by
  have hp : ∀ v w, SameAct fr (plainStore P fr x v w).2.1 := fun v w => act_storeId fr P w x v
  unfold assignId
  cases a with
  | plain => exact hp v w
  | named => simp only []; split; exact .rfl'; exact hp v w
  | aug op =>
    simp only []
    split
    · exact .rfl'
    · split
      · exact .rfl'
      · exact hp _ _

theorem act_markGlobal (x : Nat) (o : Bool) : SameAct fr (markGlobal fr x o) := by
  unfold markGlobal
  split
  · exact .rfl'
  · have h := act_varLookup fr false x true o
    rcases hh : variableLookup fr false x true o with ⟨l, fr'⟩
    rw [hh] at h
    cases l with
    | none => exact h
    | some l => exact h.trans (act_set _ _ _)

theorem act_idDel (B : VarBytes Val) (x : Nat) : SameAct fr (idDel B fr x).2 := by
  unfold idDel; split <;> exact .rfl'

theorem act_rangeStart (P : Prim σ) (x : Nat) (d : UInt8) (args : List Val) (w : σ) :
    SameAct fr (rangeStart P x d args fr w).2.1 := by
  unfold rangeStart
  have h3 : ∀ v1 v2 v3 y1 y2 y3, SameAct fr
      (storeId P (storeId P (storeId P fr w y1 v1).2.1 (storeId P fr w y1 v1).2.2 y2 v2).2.1
        (storeId P (storeId P fr w y1 v1).2.1 (storeId P fr w y1 v1).2.2 y2 v2).2.2 y3 v3).2.1 :=
    fun v1 v2 v3 y1 y2 y3 => ((act_storeId _ _ _ _ _).trans (act_storeId _ _ _ _ _)).trans (act_storeId _ _ _ _ _)
  split
  · exact h3 _ _ _ _ _ _
  · exact h3 _ _ _ _ _ _
  · simp only []; split
    · exact .rfl'
    · exact h3 _ _ _ _ _ _
  · exact .rfl'

theorem act_rangeStep (P : Prim σ) (x : Nat) (d : UInt8) : SameAct fr (rangeStep P x d fr).2 := by
  unfold rangeStep
  split
  · simp only []
    split
    · exact act_set _ _ _
    · repeat' split
      all_goals exact act_set _ _ _
  · exact .rfl'

theorem act_inStep (P : Prim σ) (x : Nat) (d : UInt8) (w : σ) : SameAct fr (inStep P x d fr w).2.1 := by
  unfold inStep
  split
  · simp only []
    split
    · exact act_set _ _ _
    · split
      · exact act_set _ _ _
      · split
        · exact act_set _ _ _
        · split
          · rename_i h; have h2 := congrArg (fun r => r.2.1) h; simp only [] at h2; rw [← h2]
            exact (act_set _ _ _).trans (act_storeId _ _ _ _ _)
          · rename_i h; have h2 := congrArg (fun r => r.2.1) h; simp only [] at h2; rw [← h2]
            exact (act_set _ _ _).trans (act_storeId _ _ _ _ _)
  · exact .rfl'

end act

/-! ## One instruction: activations and stack -/

/-- Effect of an instruction on activations and stack. -/
structure Eff (ip0 : Nat) (s s' : Vm σ) : Prop where
  act : (SameAct s.fr s'.fr ∧ s'.code = s.code) ∨
    ∃ vars, s'.fr.frames = ⟨vars, s.code, ip0⟩ :: s.fr.frames
  stack : s'.stack.length ≤ s.stack.length
  pend : s'.pend = s.pend

/-- The result of a switch case has the effect. -/
def EffR (ip0 : Nat) (s : Vm σ) : ExR σ → Prop
  | .ok s' _ => Eff ip0 s s'
  | _ => True

theorem Eff.rfl' {ip0} {s : Vm σ} : Eff ip0 s s := ⟨.inl ⟨.rfl', rfl⟩, Nat.le_refl _, rfl⟩

theorem effR_res {ip0} {s t : Vm σ} (h : Eff ip0 s t) (p : Bool) (o : Option Val × σ) : EffR ip0 s (t.res p o) := by
  rcases o with ⟨_ | v, w⟩
  · trivial
  · exact ⟨h.act, h.stack, h.pend⟩

theorem effR_pop {ip0} {s t : Vm σ} (h : Eff ip0 s t) (k : Val → Vm σ → ExR σ)
    (hk : ∀ x t', Eff ip0 s t' → EffR ip0 s (k x t')) : EffR ip0 s (t.pop k) := by
  unfold Vm.pop
  split
  · trivial
  · rename_i hs
    refine hk _ _ ⟨h.act, ?_, h.pend⟩
    have := h.stack
    simp [hs] at this ⊢; omega

theorem effR_popIf {ip0} {s t : Vm σ} (h : Eff ip0 s t) (b : Bool) (k : Option Val → Vm σ → ExR σ)
    (hk : ∀ x t', Eff ip0 s t' → EffR ip0 s (k x t')) : EffR ip0 s (t.popIf b k) := by
  unfold Vm.popIf
  split
  · exact effR_pop h _ (fun x t' => hk _ t')
  · exact hk _ _ h

theorem effR_popN {ip0} {s t : Vm σ} (h : Eff ip0 s t) (n : Nat) (k : List Val → Vm σ → ExR σ)
    (hk : ∀ x t', Eff ip0 s t' → (∀ f, t'.fr = f → t.fr = f) → t'.code = t.code → EffR ip0 s (k x t')) :
    EffR ip0 s (t.popN n k) := by
  unfold Vm.popN
  split
  · refine hk _ _ ⟨h.act, ?_, h.pend⟩ (fun f hf => hf) rfl
    have := h.stack
    simp; omega
  · trivial

theorem exec1_eff (P : Prim σ) (i : Ins) (push : Bool) (ip0 : Nat) (s : Vm σ) : EffR ip0 s (exec1 P i push ip0 s) := by
  have r0 := Eff.rfl' (ip0 := ip0) (s := s)
  cases i with
  | chain c t =>
    simp only [exec1]
    refine effR_pop r0 _ fun x t' h => ?_
    split
    · trivial
    · split
      · exact ⟨h.act, h.stack, h.pend⟩
      · exact ⟨h.act, h.stack, h.pend⟩
  | rel r =>
    simp only [exec1]
    exact effR_pop r0 _ fun x t' h => effR_res h _ _
  | array =>
    simp only [exec1]
    exact effR_pop r0 _ fun x t' h => effR_res h _ _
  | arith op =>
    simp only [exec1]
    exact effR_pop r0 _ fun x t' h => effR_res h _ _
  | assign a x =>
    simp only [exec1]
    split
    · exact effR_pop r0 _ fun x t' h => effR_pop h _ fun x t' h => effR_res h _ _
    · exact effR_res (s := s) (t := { s with fr := (assignId P a x s.acc s.fr s.w).2.1 })
        ⟨.inl ⟨act_assignId s.fr P a x s.acc s.w, rfl⟩, Nat.le_refl _, rfl⟩ _ _
  | num u => exact ⟨r0.act, r0.stack, rfl⟩
  | int b => exact ⟨r0.act, r0.stack, rfl⟩
  | string o => exact ⟨r0.act, r0.stack, rfl⟩
  | mk k n =>
    simp only [exec1]
    exact effR_popN r0 _ _ fun x t' h _ _ => effR_res h _ _
  | id x =>
    simp only [exec1]
    split
    · exact ⟨r0.act, r0.stack, rfl⟩
    · trivial
  | unary u =>
    cases u with
    | not => exact ⟨r0.act, r0.stack, rfl⟩
    | uminus => exact effR_res r0 _ _
    | lnot => exact effR_res r0 _ _
  | call n =>
    simp only [exec1, callIns, Vm.popN, Vm.pop]
    split
    · rename_i hn
      split
      · trivial
      · rename_i x l hx
        have hl : l.length ≤ s.stack.length := by
          have := congrArg List.length hx
          simp at this; omega
        split
        · split
          · trivial
          · split
            · exact ⟨.inr ⟨_, rfl⟩, hl, rfl⟩
            · trivial
        · exact effR_res (s := s) (t := { s with stack := l }) ⟨.inl ⟨.rfl', rfl⟩, hl, rfl⟩ _ _
        · trivial
    · trivial
  | slice f =>
    simp only [exec1]
    refine effR_popIf r0 _ _ fun x t' h => effR_popIf h _ _ fun x t' h => effR_popIf h _ _ fun x t' h =>
      effR_pop h _ fun x t' h => effR_res h _ _
  | global x =>
    simp only [exec1]
    split
    · trivial
    · exact ⟨.inl ⟨act_markGlobal s.fr x _, rfl⟩, Nat.le_refl _, rfl⟩
  | del x =>
    simp only [exec1]
    split
    · refine effR_pop r0 _ fun x t' h => ?_
      split
      · exact ⟨h.act, h.stack, h.pend⟩
      · trivial
    · exact ⟨.inl ⟨act_idDel s.fr _ x, rfl⟩, Nat.le_refl _, rfl⟩
  | assert =>
    simp only [exec1]; split
    · exact ⟨r0.act, r0.stack, rfl⟩
    · trivial
  | branch t => exact ⟨r0.act, r0.stack, rfl⟩
  | branchTrue t =>
    simp only [exec1]; split
    · exact ⟨r0.act, r0.stack, rfl⟩
    · exact r0
  | branchFalse t =>
    simp only [exec1]; split
    · exact r0
    · exact ⟨r0.act, r0.stack, rfl⟩
  | forward f => trivial
  | rangeStart n d x =>
    simp only [exec1]
    refine effR_popN r0 _ _ fun l t' h hf hc => ?_
    have hfr : t'.fr = s.fr := (hf _ rfl).symm
    have ha := act_rangeStart t'.fr P x d l t'.w
    split
    · rename_i heq
      rw [heq] at ha
      exact ⟨.inl ⟨hfr ▸ ha, hc⟩, h.stack, h.pend⟩
    · trivial
  | rangeStep t d x =>
    simp only [exec1]
    have ha := act_rangeStep s.fr P x d
    split
    · rename_i heq; rw [heq] at ha; exact ⟨.inl ⟨ha, rfl⟩, Nat.le_refl _, rfl⟩
    · rename_i heq; rw [heq] at ha; exact ⟨.inl ⟨ha, rfl⟩, Nat.le_refl _, rfl⟩
    · trivial
  | inStep t d x =>
    simp only [exec1]
    have ha := act_inStep s.fr P x d s.w
    split
    · rename_i heq; rw [heq] at ha; exact ⟨.inl ⟨ha, rfl⟩, Nat.le_refl _, rfl⟩
    · rename_i heq; rw [heq] at ha; exact ⟨.inl ⟨ha, rfl⟩, Nat.le_refl _, rfl⟩
    · trivial
  | ret => exact ⟨r0.act, r0.stack, rfl⟩
  | line n => exact ⟨r0.act, r0.stack, rfl⟩
  | null => exact ⟨r0.act, r0.stack, rfl⟩
  | nop => exact r0

/-- A step of a machine that goes on running. -/
theorem step_eff {P : Prim σ} {s t : Vm σ} (h : step P s = .run t) :
    (s.ip < s.code.length ∧ s.pend = false ∧ ((SameAct s.fr t.fr ∧ t.code = s.code) ∨
        ∃ vars, t.fr.frames = ⟨vars, s.code, s.ip⟩ :: s.fr.frames)) ∨
    (s.code.length ≤ s.ip ∧ ∃ f, s.fr.frames = f :: t.fr.frames ∧ t.code = f.code ∧ t.ip = f.ip + P.W + 1) := by
  unfold step at h
  split at h
  · rename_i hlt
    simp only [] at h
    have he := exec1_eff P (fetch P.W s.code s.ip).1 (fetch P.W s.code s.ip).2.1 s.ip { s with ip := (fetch P.W s.code s.ip).2.2 }
    revert h he
    cases exec1 P (fetch P.W s.code s.ip).1 (fetch P.W s.code s.ip).2.1 s.ip { s with ip := (fetch P.W s.code s.ip).2.2 } with
    | fault => simp
    | error s' => simp
    | ok s' p =>
      intro h he
      simp only [] at h
      by_cases hp : s.pend = true
      · simp [hp] at h
      · simp only [hp, if_false, Bool.false_eq_true] at h
        refine .inl ⟨hlt, by simpa using hp, ?_⟩
        have hact := he.act
        cases p with
        | true =>
          simp only [if_true, Out.run.injEq] at h
          subst h
          unfold Vm.pushAcc
          split <;> exact hact
        | false =>
          simp only [if_false, Bool.false_eq_true, Out.run.injEq] at h
          subst h
          exact hact
  · rename_i hlt
    refine .inr ⟨Nat.not_lt.1 hlt, ?_⟩
    unfold framePop at h
    cases hf : s.fr.frames with
    | nil => simp [hf] at h; split at h <;> simp at h
    | cons f fs =>
      simp only [hf] at h
      refine ⟨f, ?_⟩
      split at h <;> simp only [Out.run.injEq] at h <;> subst h
      · unfold Vm.pushAcc; split <;> exact ⟨rfl, rfl, rfl⟩
      · exact ⟨rfl, rfl, rfl⟩

/-- The stack never grows beyond its capacity. -/
theorem step_stack {P : Prim σ} {s t : Vm σ} (h : step P s = .run t) (hs : s.stack.length ≤ P.cap) : t.stack.length ≤ P.cap := by
  have hp : ∀ u : Vm σ, u.stack.length ≤ P.cap → (u.pushAcc P).stack.length ≤ P.cap := by
    intro u hu
    unfold Vm.pushAcc
    split
    · exact hu
    · simp; omega
  unfold step at h
  split at h
  · simp only [] at h
    have he := exec1_eff P (fetch P.W s.code s.ip).1 (fetch P.W s.code s.ip).2.1 s.ip { s with ip := (fetch P.W s.code s.ip).2.2 }
    revert h he
    cases exec1 P (fetch P.W s.code s.ip).1 (fetch P.W s.code s.ip).2.1 s.ip { s with ip := (fetch P.W s.code s.ip).2.2 } with
    | fault => simp
    | error s' => simp
    | ok s' p =>
      intro h he
      have h1 : s'.stack.length ≤ P.cap := Nat.le_trans he.stack hs
      simp only [] at h
      split at h
      · simp at h
      · split at h <;> simp only [Out.run.injEq] at h <;> subst h
        · exact hp _ h1
        · exact h1
  · split at h
    · split at h <;> simp at h
    · split at h <;> simp only [Out.run.injEq] at h <;> subst h
      · exact hp _ hs
      · exact hs

/-! ## Machine states and evaluator states -/

/-- Where the running function was called from. -/
def ctxOf (vm : Vm σ) : Ctx :=
  match vm.fr.frames with
  | [] => ⟨[], 0, []⟩
  | f :: r => ⟨f.code, f.ip, r⟩

theorem emb_visible (vm : Vm σ) : emb (ctxOf vm) (visible vm.fr) = vm.fr := by
  unfold emb ctxOf visible
  rcases h : vm.fr with ⟨g, frs⟩
  cases frs <;> rfl

theorem vm_eq_st (vm : Vm σ) (h : vm.pend = false) :
    vm = st (ctxOf vm) vm.code vm.ip vm.acc vm.stack ⟨visible vm.fr, vm.w⟩ vm.line := by
  unfold st
  rw [emb_visible, ← h]

theorem visible_ip (fr : Frames Val γ) : (visible fr).frames = [] ∨ ∃ vars, (visible fr).frames = [⟨vars, (), 0⟩] := by
  unfold visible
  cases h : fr.frames with
  | nil => exact .inl (by simp)
  | cons f r => exact .inr ⟨f.vars, by simp⟩

/-- Frames of the evaluator correspond to the machine's after an embedding. -/
theorem visible_emb {vm : Vm σ} {fr : Frames Val Unit} (h : SameTop (visible vm.fr) fr) : visible (emb (ctxOf vm) fr) = fr := by
  unfold SameTop at h
  rcases visible_ip vm.fr with h0 | ⟨vars, h0⟩
  · rw [h0] at h
    rcases fr with ⟨g, frs⟩
    cases frs with
    | nil => rfl
    | cons f r => simp at h
  · rw [h0] at h
    rcases fr with ⟨g, frs⟩
    cases frs with
    | nil => simp at h
    | cons f r =>
      cases r with
      | nil =>
        rcases f with ⟨v, _, ip⟩
        simp at h
        subst h
        rfl
      | cons f2 r => simp at h

theorem sameAct_emb {vm : Vm σ} {fr : Frames Val Unit} (h : SameTop (visible vm.fr) fr) : SameAct vm.fr (emb (ctxOf vm) fr) := by
  have h1 := emb_visible vm
  have h2 : SameAct (emb (ctxOf vm) (visible vm.fr)) (emb (ctxOf vm) fr) := by
    unfold SameTop at h
    unfold SameAct emb
    cases hv : (visible vm.fr).frames <;> cases hf : fr.frames <;> simp_all
  rwa [h1] at h2

theorem encodeAll_enc (W : Nat) (l : List (Ins × Bool)) : encodeAll W l = enc W l := by
  induction l with
  | nil => rfl
  | cons x l ih => simp only [encodeAll, List.flatMap_cons, enc] at ih ⊢; rw [ih]

theorem Compiled.fnOk {P : Prim σ} {conv defs} (h : Compiled P conv defs) (k : Nat) : FnOk P conv (P.code k) (defs k) := by
  rw [h.code k]; exact fnOk_emit h.width _ (h.wf k) (h.small k)

/-- The code of an expression is where `AtExpr` says. -/
theorem AtExpr.codeAt {W : Nat} {conv} {vm : Vm σ} {e p after z} (hW : 2 ≤ W) (h : AtExpr W conv vm e p after) (wf : WfE W z e) :
    CodeAt W vm.code vm.ip (compE W conv p vm.ip e) ∧ after = vm.ip + isz W (compE W conv p vm.ip e) := by
  obtain ⟨b, before, rest, hb, hprev, hne, hip, hafter, hcode, hlen⟩ := h
  have hr : Rep W b before := by
    refine ⟨by rw [hb, encodeAll_enc], fun h => ?_⟩
    rw [hprev h, encodeAll_enc]; simp
  have hcur : b.cur = isz W before := hr.cur
  have hr2 : Rep W (if p then (emitE W conv e b).pushPrev else emitE W conv e b) (before ++ compE W conv p (isz W before) e) := by
    have h1 := emitE_rep (conv := conv) hW e wf hr (by
      rcases hne with h | h
      · refine .inl ?_
        cases before with
        | nil => exact absurd rfl h
        | cons x l => have := x.1.size_pos W; simp; omega
      · exact .inr h)
    cases p with
    | true => exact h1.pushE
    | false => exact h1
  have hc2 : vm.code = enc W (before ++ (compE W conv p (isz W before) e ++ rest)) := by
    rw [hcode, hr2.bytes, encodeAll_enc, ← List.append_assoc]
    simp
  rw [hip, hcur]
  refine ⟨codeAt_enc before _ rest hc2 (compE_fits hW _ _ e wf ?_), ?_⟩
  · have := congrArg List.length hc2
    simp at this; omega
  · rw [hafter, hr2.cur]; simp

section
variable {P : Prim σ} {conv : BitVec 32 → BitVec 8} {defs : Nat → FunDef}

/-- What follows from a simulated expression. -/
theorem postE_raw {vm vm' : Vm σ} {ip p v} {s' : St σ}
    (h : PostE P (ctxOf vm) vm.code ip p vm.stack.length vm.stack ⟨visible vm.fr, vm.w⟩ v s' vm')
    (hp : p = true → vm.stack.length < P.cap) :
    SameActivation vm vm' ∧ vm'.ip = ip ∧ vm'.acc = v ∧ vm'.stack = (if p then v :: vm.stack else vm.stack) ∧
      visible vm'.fr = s'.fr ∧ vm'.w = s'.w ∧ vm'.pend = false := by
  obtain ⟨ht, h2, -⟩ := h
  obtain ⟨ln, rfl⟩ := h2 hp
  have ha := sameAct_emb ht
  exact ⟨⟨rfl, ha.1, ha.2⟩, rfl, rfl, rfl, visible_emb ht, rfl, rfl⟩

theorem raw_expr (hC : Compiled P conv defs) {vm : Vm σ} {e : Expr} {z p after} (wf : WfE P.W z e)
    (hat : AtExpr P.W conv vm e p after) (hp : vm.pend = false) (hcap : vm.stack.length ≤ P.cap) (n : Nat) :
    Sim P vm (evalE P defs n vm.stack.length e ⟨visible vm.fr, vm.w⟩)
      (PostE P (ctxOf vm) vm.code after p vm.stack.length vm.stack ⟨visible vm.fr, vm.w⟩) := by
  obtain ⟨hcode, hafter⟩ := hat.codeAt hC.width wf
  have h := (sim_all (conv := conv) (defs := defs) hC.width hC.fnOk n).1 z vm.stack.length e ⟨visible vm.fr, vm.w⟩ (ctxOf vm)
    vm.code vm.ip vm.acc vm.stack p vm.line wf hcode ⟨rfl, hcap⟩
  rw [← vm_eq_st vm hp] at h
  rw [hafter]
  exact h

theorem raw_command (hC : Compiled P conv defs) {s : Stmt} (wf : CmdWf P.W conv s) (e : End σ) (n : Nat) :
    Sim P (start (emitCommand P.W conv s) [] e) (execS P defs n 0 0 s ⟨⟨e.globals, []⟩, e.w⟩)
      (PostS P id ⟨[], 0, []⟩ (emitCommand P.W conv s) (emitCommand P.W conv s).length [] ⟨⟨e.globals, []⟩, e.w⟩) :=
  command_sim hC.width (fun k => ⟨hC.wf k, hC.code k, hC.small k⟩) s wf.wf wf.line wf.small e n

/-- The end of a command. -/
theorem step_finish (vm : Vm σ) (hip : vm.code.length ≤ vm.ip) (hf : vm.fr.frames = []) (hp : vm.pend = false) :
    step P vm = .done vm.acc ⟨vm.fr.globals, vm.w, vm.line⟩ := by
  unfold step
  rw [if_neg (Nat.not_lt.2 hip)]
  simp [framePop, hf, hp, Vm.end]

theorem sameTop_nil {g : List (Var Val)} {fr : Frames Val Unit} (h : SameTop ⟨g, []⟩ fr) : fr = ⟨fr.globals, []⟩ := by
  unfold SameTop at h
  rcases fr with ⟨g', frs⟩
  cases frs with
  | nil => rfl
  | cons f r => simp at h

/-- A command that is a single expression. -/
theorem raw_exprCommand (hC : Compiled P conv defs) {l : Nat} {e : Expr} (wf : CmdWf P.W conv (.seq (.line l) (.expr e)))
    (E : End σ) (n : Nat) :
    Sim P (start (emitCommand P.W conv (.seq (.line l) (.expr e))) [] E) (evalE P defs n 0 e ⟨⟨E.globals, []⟩, E.w⟩)
      (fun v s vm => step P vm = .done v ⟨s.fr.globals, s.w, vm.line⟩) := by
  let C := emitCommand P.W conv (.seq (.line l) (.expr e))
  let vm1 : Vm σ := ⟨C, 1 + P.W, Val.none, [], ⟨E.globals, []⟩, l, E.w, false⟩
  have hr := emitS_rep (conv := conv) hC.width 0 _ wf.wf Rep.empty (.inr wf.line)
  simp only [List.nil_append, isz_nil, compS, isz_cons, Nat.add_zero, sz_line, Nat.zero_add] at hr
  have hCb : C = enc P.W ([(Ins.line l, false)] ++ compE P.W conv false (1 + P.W) e) := hr.bytes
  have hlen : C.length = 1 + P.W + isz P.W (compE P.W conv false (1 + P.W) e) := by rw [hCb]; simp [sz_line]
  have hsm : C.length < 256 ^ P.W := wf.small
  have h1 : ItemAt P.W C 0 (.line l, false) :=
    itemAt_enc [] (.line l, false) (compE P.W conv false (1 + P.W) e) hCb (by exact wf.wf.1)
  have h2 : CodeAt P.W C (1 + P.W) (compE P.W conv false (1 + P.W) e) := by
    have := codeAt_enc (C := C) [(Ins.line l, false)] (compE P.W conv false (1 + P.W) e) [] (by simpa using hCb)
      (compE_fits hC.width _ _ e wf.wf.2 (by omega))
    simpa [sz_line] using this
  have hst : Steps P (start C [] E) vm1 := by
    have := step_run (P := P) (c := ⟨[], 0, []⟩) (acc := Val.none) (stk0 := []) (s := ⟨⟨E.globals, []⟩, E.w⟩) (ln := E.line) h1 rfl
    simpa [st, start, emb, vm1, sz_line] using this
  refine Sim.steps hst ?_
  have h := (sim_all (conv := conv) (defs := defs) hC.width hC.fnOk n).1 false 0 e ⟨⟨E.globals, []⟩, E.w⟩ ⟨[], 0, []⟩
    C (1 + P.W) Val.none [] false l wf.wf.2 h2 ⟨rfl, Nat.zero_le _⟩
  refine Sim.mono h ?_
  rintro v s vm' hp
  obtain ⟨ht, ln, rfl⟩ := hp.noPush
  have hfr := sameTop_nil ht
  have := step_finish (P := P) (st ⟨[], 0, []⟩ C (1 + P.W + isz P.W (compE P.W conv false (1 + P.W) e)) v [] s ln)
    (Nat.le_of_eq hlen) (by simp only [st]; rw [hfr]; rfl) rfl
  rw [this]; rfl

end

end Snek.Lang
