import Verif.Proofs.VmRaw
import Verif.Proofs.Fuel
/-!
# Calls, endings and overflow
-/
namespace Snek.Lang
open Store (Val)
open Snek.Vm

variable {σ : Type} {P : Prim σ} {conv : BitVec 32 → BitVec 8} {defs : Nat → FunDef}

/-! ## Calls in arbitrary code -/

/-- Below the top `pre` frames is the frame of one call and then its caller's frames. -/
def CallerIs (F : List (Frame Val (List UInt8))) (c : List UInt8) (ip : Nat) (t : Vm σ) : Prop :=
  ∃ pre vars, t.fr.frames = pre ++ ⟨vars, c, ip⟩ :: F

theorem callerIs_step {F c ip} {s t : Vm σ} (hs : CallerIs F c ip s) (h : step P s = .run t) :
    CallerIs F c ip t ∨ (t.fr.frames = F ∧ t.code = c ∧ t.ip = ip + P.W + 1) := by
  obtain ⟨pre, vars, hf⟩ := hs
  rcases step_eff h with ⟨_, _, ⟨ha, _⟩ | ⟨v, hv⟩⟩ | ⟨_, f, h1, h2, h3⟩
  · left
    obtain ⟨h1, h2⟩ := ha
    cases pre with
    | nil =>
      simp only [List.nil_append] at hf
      cases ht : t.fr.frames with
      | nil => rw [ht, hf] at h2; simp at h2
      | cons g gs =>
        rw [ht, hf] at h1 h2
        simp at h1 h2
        refine ⟨[], g.vars, ?_⟩
        rw [List.nil_append, ht, h1, ← h2.1.1, ← h2.1.2]
    | cons x pre =>
      cases ht : t.fr.frames with
      | nil => rw [ht, hf] at h2; simp at h2
      | cons g gs =>
        rw [ht, hf] at h1
        simp at h1
        exact ⟨g :: pre, vars, by rw [ht, h1]; rfl⟩
  · exact .inl ⟨⟨v, s.code, s.ip⟩ :: pre, vars, by rw [hv, hf]; rfl⟩
  · cases pre with
    | nil =>
      right
      rw [hf] at h1
      simp at h1
      obtain ⟨rfl, h1⟩ := h1
      exact ⟨h1.symm, h2, h3⟩
    | cons x pre =>
      left
      rw [hf] at h1
      simp at h1
      exact ⟨pre, vars, h1.2.symm⟩

theorem callerIs_above {F c ip} {s t : Vm σ} (hs : CallerIs F c ip s) (h : StepsAbove P F.length s t) : CallerIs F c ip t := by
  induction h with
  | refl => exact hs
  | step h0 h1 h2 ih =>
    apply ih
    rcases callerIs_step hs h1 with h | ⟨h, _⟩
    · exact h
    · exfalso
      cases h2 with
      | refl _ h' => rw [h] at h'; omega
      | step h' => rw [h] at h'; omega

/-! ## Compiled calls -/

theorem prim_frames {s : St σ} {o v s'} (h : s.prim o = .ok v s') : s'.fr = s.fr := by
  rcases o with ⟨_ | u, w⟩
  · simp [St.prim] at h
  · simp [St.prim] at h; rw [← h.2]

theorem bind_ok {α β : Type} {r : R σ α} {k : α → St σ → R σ β} {b s'} (h : r.bind k = .ok b s') :
    ∃ a s, r = .ok a s ∧ k a s = .ok b s' := by
  cases r with
  | ok a s => exact ⟨a, s, rfl, h⟩
  | err => simp [R.bind] at h
  | over => simp [R.bind] at h
  | time => simp [R.bind] at h

theorem callV_frames {n d fv pos named} {s s' : St σ} {v} (h : callV P defs n d fv pos named s = .ok v s') :
    s'.fr.frames = s.fr.frames := by
  cases n with
  | zero => simp [callV] at h
  | succ n =>
    simp only [callV] at h
    split at h
    · exact congrArg _ (prim_frames h)
    · split at h
      · simp at h
      · split at h
        · obtain ⟨_, t1, _, h⟩ := bind_ok h
          obtain ⟨fl, t2, _, h⟩ := bind_ok h
          cases fl with
          | normal => simp at h; rw [← h.2]
          | ret v => simp at h; rw [← h.2]
          | brk => simp [St.fail] at h
          | cont => simp [St.fail] at h
        · simp at h
    · simp [St.fail] at h

/-- A call instruction with its operands on the stack. -/
theorem raw_call (hC : Compiled P conv defs) {vm : Vm σ} {fv : Val} {pos : List Val} {named : List (Nat × Val)} {stk : List Val}
    {p : Bool} (hip : vm.ip < vm.code.length)
    (hfetch : fetch P.W vm.code vm.ip = (.call (pos.length + 256 * named.length), p, vm.ip + 1 + P.W))
    (hpos : pos.length < 256) (hnam : ∀ q ∈ named, q.1 < 2 ^ 15)
    (hstk : vm.stack = (pos ++ flatten named).reverse ++ fv :: stk) (hcap : stk.length ≤ P.cap) (hp : vm.pend = false) (n : Nat) :
    Sim P vm (callV P defs n stk.length fv pos named ⟨visible vm.fr, vm.w⟩)
      (PostE P (ctxOf vm) vm.code (vm.ip + 1 + P.W) p stk.length stk ⟨visible vm.fr, vm.w⟩) := by
  have h := (sim_all (conv := conv) (defs := defs) hC.width hC.fnOk n).2.2.2.2.2.1 stk.length fv pos named ⟨visible vm.fr, vm.w⟩
    (ctxOf vm) vm.code vm.ip vm.acc stk p vm.line ⟨hip, by rw [hfetch]; simp [sz_call, Nat.add_assoc]⟩ hpos hnam ⟨rfl, hcap⟩
  have e : (flatten named).reverse ++ (pos.reverse ++ fv :: stk) = vm.stack := by rw [hstk]; simp
  rw [e, ← vm_eq_st vm hp] at h
  exact h

/-! ## Endings -/

/-- What a run ends with is determined. -/
theorem steps_det {a b : Vm σ} {o : Out σ} (h : Steps P a b) (hb : step P b = o) (ho : ∀ t, o ≠ .run t) {c : Vm σ}
    (hc : Steps P a c) : Steps P c b := by
  induction h with
  | refl s =>
    cases hc with
    | refl => exact .refl _
    | step h r => exact absurd (hb.symm.trans h) (ho _)
  | step h r ih =>
    cases hc with
    | refl => exact .step h r
    | step h' r' =>
      rw [h] at h'
      simp at h'
      subst h'
      exact ih hb r'

theorem ends_det {a b c : Vm σ} {o o' : Out σ} (h : Steps P a b) (hb : step P b = o) (ho : ∀ t, o ≠ .run t)
    (h' : Steps P a c) (hc : step P c = o') (ho' : ∀ t, o' ≠ .run t) : o = o' := by
  have := steps_det h hb ho h'
  cases this with
  | refl => rw [← hb, hc]
  | step h _ => exact absurd (hc.symm.trans h) (ho' _)

/-! ## Overflow -/

/-- Once a push has failed the run is over after at most the rest of the returns and one instruction. -/
theorem pend_ends {vm : Vm σ} (h : vm.pend = true) :
    ∃ vm', Steps P vm vm' ∧ (step P vm' = .fault ∨ ∃ e, step P vm' = .abort e) := by
  generalize hk : vm.fr.frames.length = k
  induction k generalizing vm with
  | zero =>
    have hf : vm.fr.frames = [] := List.eq_nil_of_length_eq_zero hk
    refine ⟨vm, .refl _, ?_⟩
    unfold step
    split
    · simp only []
      cases exec1 P (fetch P.W vm.code vm.ip).1 (fetch P.W vm.code vm.ip).2.1 vm.ip { vm with ip := (fetch P.W vm.code vm.ip).2.2 } with
      | fault => exact .inl rfl
      | error s' => exact .inr ⟨_, rfl⟩
      | ok s' p => simp only [h, if_true]; exact .inr ⟨_, rfl⟩
    · simp only [framePop, hf, h, if_true]; exact .inr ⟨_, rfl⟩
  | succ k ih =>
    by_cases hlt : vm.ip < vm.code.length
    · refine ⟨vm, .refl _, ?_⟩
      unfold step
      simp only [if_pos hlt]
      cases exec1 P (fetch P.W vm.code vm.ip).1 (fetch P.W vm.code vm.ip).2.1 vm.ip { vm with ip := (fetch P.W vm.code vm.ip).2.2 } with
      | fault => exact .inl rfl
      | error s' => exact .inr ⟨_, rfl⟩
      | ok s' p => simp only [h, if_true]; exact .inr ⟨_, rfl⟩
    · cases hf : vm.fr.frames with
      | nil => rw [hf] at hk; simp at hk
      | cons f r =>
        have : ∃ t, step P vm = .run t ∧ t.pend = true ∧ t.fr.frames = r := by
          unfold step
          rw [if_neg hlt]
          simp only [framePop, hf]
          split
          · refine ⟨_, rfl, ?_, ?_⟩ <;> unfold Vm.pushAcc <;> split <;> simp [h]
          · exact ⟨_, rfl, h, rfl⟩
        obtain ⟨t, h1, h2, h3⟩ := this
        obtain ⟨vm', h4, h5⟩ := ih h2 (by rw [h3]; rw [hf] at hk; simpa using hk)
        exact ⟨vm', .step h1 h4, h5⟩

theorem steps_stack {a b : Vm σ} (h : Steps P a b) (ha : a.stack.length ≤ P.cap) : b.stack.length ≤ P.cap := by
  induction h with
  | refl => exact ha
  | step h _ ih => exact ih (step_stack h ha)

/-! ## Expressions -/

theorem yields_of (hC : Compiled P conv defs) {vm : Vm σ} {e : Expr} {z p after} (wf : WfE P.W z e)
    (hat : AtExpr P.W conv vm e p after) (hp : vm.pend = false) (hcap : vm.stack.length < P.cap) {n : Nat} {v : Val} {s : St σ}
    (h : evalE P defs n vm.stack.length e ⟨visible vm.fr, vm.w⟩ = .ok v s) : Yields P vm p after v s := by
  have := raw_expr hC wf hat hp (Nat.le_of_lt hcap) n
  rw [h] at this
  obtain ⟨vm', h1, h2⟩ := this
  exact ⟨vm', h1, postE_raw h2 (fun _ => hcap)⟩

theorem stops_of (hC : Compiled P conv defs) {vm : Vm σ} {e : Expr} {z p after} (wf : WfE P.W z e)
    (hat : AtExpr P.W conv vm e p after) (hp : vm.pend = false) (hcap : vm.stack.length < P.cap) {n : Nat} {g w}
    (h : evalE P defs n vm.stack.length e ⟨visible vm.fr, vm.w⟩ = .err g w) : StopsWith P vm g w := by
  have := raw_expr hC wf hat hp (Nat.le_of_lt hcap) n
  rw [h] at this
  obtain ⟨vm', ⟨g', w', ln⟩, h1, h2, rfl, rfl⟩ := this
  exact ⟨vm', ln, h1, h2⟩

/-- Two evaluations with different bounds on the recursion have a common bound. -/
theorem common_fuel {d} {a b : Expr} {s t : St σ} {n m : Nat} {r r' : R σ Val} (ha : evalE P defs n d a s = r)
    (hb : evalE P defs m d b t = r') (hr : r.cut = false) (hr' : r'.cut = false) :
    evalE P defs (n + m) d a s = r ∧ evalE P defs (n + m) d b t = r' :=
  ⟨R.le_eq (evalE_more (Nat.le_add_right _ _) _ _ _) ha hr, R.le_eq (evalE_more (Nat.le_add_left _ _) _ _ _) hb hr'⟩

/-! ## Whole commands -/

/-- What a command does, by how the evaluator says its statements end. -/
theorem raw_command_ends (hC : Compiled P conv defs) {s : Stmt} (wf : CmdWf P.W conv s) (e : End σ) (n : Nat) :
    match execS P defs n 0 0 s ⟨⟨e.globals, []⟩, e.w⟩ with
    | .ok .normal t => ∃ v, EndsWith P (start (emitCommand P.W conv s) [] e) v t.fr.globals t.w
    | .ok (.ret v) t => EndsWith P (start (emitCommand P.W conv s) [] e) v t.fr.globals t.w
    | .ok _ t => StopsWith P (start (emitCommand P.W conv s) [] e) t.fr.globals t.w
    | .err g w => StopsWith P (start (emitCommand P.W conv s) [] e) g w
    | .over => ∃ vm', Steps P (start (emitCommand P.W conv s) [] e) vm' ∧ vm'.pend = true
    | .time g w => ∃ vm', Steps P (start (emitCommand P.W conv s) [] e) vm' ∧ vm'.fr.globals = g ∧ vm'.w = w := by
  have h := raw_command hC wf e n
  revert h
  cases execS P defs n 0 0 s ⟨⟨e.globals, []⟩, e.w⟩ with
  | time => exact id
  | over => exact id
  | err g w =>
    rintro ⟨vm', ⟨g', w', ln⟩, h1, h2, rfl, rfl⟩
    exact ⟨vm', ln, h1, h2⟩
  | ok fl t =>
    rintro ⟨vm', h1, ht, h2⟩
    have hfr := sameTop_nil ht
    cases fl with
    | normal =>
      obtain ⟨acc, ln, rfl⟩ := h2
      refine ⟨acc, _, ln, h1, ?_⟩
      rw [step_finish _ (Nat.le_refl _) (by simp only [st]; rw [hfr]; rfl) rfl]; rfl
    | ret v =>
      obtain ⟨ip, ln, hip, rfl⟩ := h2
      refine ⟨_, ln, h1, ?_⟩
      rw [step_finish _ hip (by simp only [st]; rw [hfr]; rfl) rfl]; rfl
    | brk =>
      obtain ⟨ip, acc, ln, hi, rfl⟩ := h2
      refine ⟨_, ln, h1, ?_⟩
      rw [step_item (hi.item (by simp))]; rfl
    | cont =>
      obtain ⟨ip, acc, ln, hi, rfl⟩ := h2
      refine ⟨_, ln, h1, ?_⟩
      rw [step_item (hi.item (by simp))]; rfl

end Snek.Lang
