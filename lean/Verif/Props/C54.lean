import Verif.Model.Session
import Verif.Spec.Session
import Verif.Proofs.VmCalls
import Verif.Proofs.DemoVm
/-!
# C54: errors leave the interpreter usable
-/
namespace Snek.Session
open Store (Val)
open Snek.Vm Snek.Lang

section
variable {σ μ : Type} {P : Prim σ} {oom : μ} {under : Nat}

/-- Ready for a command: no pending operand, no value, no active call. -/
def Ready (s : Sess σ μ) : Prop := s.stack = [] ∧ s.acc = Val.none ∧ s.frames = []

/-- What has been printed: values, and `none` for an error message. -/
def shown (l : List (Item μ)) : List (Option Val) := l.map fun i => match i with | .value v => some v | .error _ => none

/-- Error messages printed. -/
def errors (l : List (Item μ)) : Nat := ((shown l).filter Option.isNone).length

theorem shown_append (a b : List (Item μ)) : shown (a ++ b) = shown a ++ shown b := List.map_append

theorem errors_append (a b : List (Item μ)) : errors (a ++ b) = errors a + errors b := by
  unfold errors; rw [shown_append, List.filter_append, List.length_append]

theorem errs_same (ms : List μ) (s : Sess σ μ) : (snekErrors ms s).stack = s.stack ∧ (snekErrors ms s).acc = s.acc ∧ (snekErrors ms s).frames = s.frames ∧
    (snekErrors ms s).globals = s.globals ∧ (snekErrors ms s).w = s.w := by
  induction ms generalizing s with
  | nil => exact ⟨rfl, rfl, rfl, rfl, rfl⟩
  | cons m ms ih =>
    obtain ⟨a, b, c, d, e⟩ := ih (snekError m s)
    have h : (snekError m s).stack = s.stack ∧ (snekError m s).acc = s.acc ∧ (snekError m s).frames = s.frames ∧
        (snekError m s).globals = s.globals ∧ (snekError m s).w = s.w := by
      unfold snekError; split <;> exact ⟨rfl, rfl, rfl, rfl, rfl⟩
    exact ⟨a.trans h.1, b.trans h.2.1, c.trans h.2.2.1, d.trans h.2.2.2.1, e.trans h.2.2.2.2⟩

theorem errs_aborted (ms : List μ) (s : Sess σ μ) (h : s.abort = true) : snekErrors ms s = s := by
  induction ms with
  | nil => rfl
  | cons m ms ih =>
    show snekErrors ms (snekError m s) = s
    rw [show snekError m s = s by unfold snekError; rw [if_pos h]]; exact ih

/-- Of several errors the first is printed. -/
theorem errs_out (m : μ) (ms : List μ) (s : Sess σ μ) (h : s.abort = false) : (snekErrors (m :: ms) s).out = s.out ++ [.error m] := by
  show (snekErrors ms (snekError m s)).out = _
  have e : snekError m s = { s with abort := true, out := s.out ++ [.error m] } := by unfold snekError; rw [if_neg (by rw [h]; decide)]
  rw [e, errs_aborted _ _ rfl]

theorem act_nil {fr fr' : Frames Val (List UInt8)} (h : SameAct fr fr') (hf : fr.frames = []) : fr'.frames = [] := by
  have := h.2
  rw [hf] at this
  exact List.map_eq_nil_iff.1 this

theorem err_same (m : μ) (s : Sess σ μ) : (snekError m s).stack = s.stack ∧ (snekError m s).acc = s.acc ∧ (snekError m s).frames = s.frames ∧
    (snekError m s).globals = s.globals ∧ (snekError m s).w = s.w := errs_same [m] s

theorem store_ready {x : Nat} {v : Val} {s : Sess σ μ} (h : Ready s) : Ready (store P oom x v s) := by
  obtain ⟨h1, h2, h3⟩ := h
  have ha := act_storeId (⟨s.globals, s.frames⟩ : Frames Val (List UInt8)) P s.w x v
  unfold store
  split
  · rename_i fr w e
    rw [e] at ha
    exact ⟨h1, h2, act_nil ha h3⟩
  · rename_i fr w e
    rw [e] at ha
    obtain ⟨a, b, c, _⟩ := err_same oom { s with globals := fr.globals, frames := fr.frames, w := w }
    exact ⟨a.trans h1, b.trans h2, c.trans (act_nil ha h3)⟩

theorem exec_ready {intr : Bool} {code : List UInt8} {s s' : Sess σ μ} {v : Val} (h : Exec P intr code s v s') (hs : s.stack = []) : Ready s' := by
  cases h with
  | done r h => exact ⟨hs, rfl, rfl⟩
  | abort ms hm r h =>
    rename_i vm e
    obtain ⟨a, b, c, _⟩ := errs_same ms (leave e s)
    exact ⟨a.trans hs, b, c⟩

theorem round_ready {intr : Bool} {i : Input μ} {s s' : Sess σ μ} (h : Round P intr oom under i s s') (hs : Ready s) : Ready s' := by
  cases h with
  | ok h ha =>
    have := exec_ready h hs.1
    split
    · have h2 := store_ready (P := P) (oom := oom) (x := under) (v := by assumption) this
      exact ⟨h2.1, h2.2.1, h2.2.2⟩
    · exact this
  | stopped h ha =>
    have := exec_ready h hs.1
    exact ⟨this.1, this.2.1, this.2.2⟩
  | define => exact store_ready hs
  | syntaxError =>
    rename_i m
    obtain ⟨a, b, c, _⟩ := err_same m s
    exact ⟨a.trans hs.1, b.trans hs.2.1, c.trans hs.2.2⟩
  | lost ha => exact hs

/-- After any history of commands, errors, syntax errors and interrupts the interpreter is ready for a command: no operand is pending, no
call is active, no value is left. -/
theorem C54_ready {intr : Bool} {l : List (Input μ)} {s s' : Sess σ μ} (h : Hist P intr oom under l s s') (hs : Ready s) : Ready s' := by
  induction h with
  | nil => exact hs
  | cons h _ ih => exact ih (round_ready h hs)

/-- Memory for `_` and for the names of functions is found. -/
def Stores (P : Prim σ) : Prop := ∀ (g : List (Var Val)) (w : σ) (x : Nat) (v : Val), (storeId P (⟨g, []⟩ : Frames Val (List UInt8)) w x v).1 = true

theorem store_abort (hP : Stores P) {x : Nat} {v : Val} {s : Sess σ μ} (hs : s.frames = []) : (store P oom x v s).abort = s.abort ∧ (store P oom x v s).out = s.out := by
  have := hP s.globals s.w x v
  unfold store
  rw [hs]
  split
  · exact ⟨rfl, rfl⟩
  · rename_i h; rw [h] at this; cases this

theorem round_fresh (hP : Stores P) {intr : Bool} {i : Input μ} {s s' : Sess σ μ} (h : Round P intr oom under i s s') (hs : Ready s) (ha : s.abort = false) :
    s'.abort = false := by
  cases h with
  | ok h h0 =>
    have := exec_ready h hs.1
    split
    · exact (store_abort (oom := oom) hP this.2.2).1.trans h0
    · exact h0
  | stopped => rfl
  | define => exact (store_abort hP hs.2.2).1.trans ha
  | syntaxError => rfl
  | lost => rfl

/-- Also the error itself is forgotten: the next command is run and its first error is reported. (If there is no memory for `_` or for
a function's name it is not forgotten: see `C54_violated_lingering`.) -/
theorem C54_fresh (hP : Stores P) {intr : Bool} {l : List (Input μ)} {s s' : Sess σ μ} (h : Hist P intr oom under l s s') (hs : Ready s) (ha : s.abort = false) :
    s'.abort = false := by
  induction h with
  | nil => exact ha
  | cons h _ ih => exact ih (round_ready h hs) (round_fresh hP h hs ha)

theorem err_errors (m : μ) (s : Sess σ μ) : errors (snekError m s).out ≤ errors s.out + 1 ∧ (s.abort = true → snekError m s = s) := by
  unfold snekError
  split
  · exact ⟨by omega, fun _ => rfl⟩
  · rename_i h
    refine ⟨?_, fun h' => absurd h' h⟩
    show errors (s.out ++ [.error m]) ≤ _
    rw [errors_append]
    exact Nat.le_refl _

theorem errs_errors (ms : List μ) (s : Sess σ μ) : errors (snekErrors ms s).out ≤ errors s.out + 1 := by
  cases ms with
  | nil => exact Nat.le_succ _
  | cons m ms =>
    cases h : s.abort with
    | true => rw [errs_aborted _ _ h]; exact Nat.le_succ _
    | false =>
      rw [errs_out m ms s h, errors_append]
      exact Nat.le_refl _

theorem store_errors (x : Nat) (v : Val) (s : Sess σ μ) : errors (store P oom x v s).out ≤ errors s.out + 1 := by
  unfold store
  split
  · exact Nat.le_succ _
  · exact (err_errors oom _).1

/-- Of the errors of a command one is reported. -/
theorem C54_one_message {intr : Bool} {i : Input μ} {s s' : Sess σ μ} (h : Round P intr oom under i s s') : errors s'.out ≤ errors s.out + 1 := by
  cases h with
  | ok h ha =>
    have h0 : ∀ {c : List UInt8} {v : Val} {t : Sess σ μ}, Exec P intr c s v t → t.abort = false → t.out = s.out := by
      intro c v t h ha
      cases h with
      | done => rfl
      | abort => cases ha
    have hout := h0 h ha
    split
    · rename_i v t hc
      have := store_errors (P := P) (oom := oom) under v t
      rw [hout] at this
      show errors ((store P oom under v t).out ++ [.value v]) ≤ _
      rw [errors_append]
      exact this
    · rw [hout]; exact Nat.le_succ _
  | stopped h ha =>
    cases h with
    | done => exact Nat.le_succ _
    | abort ms hm r h =>
      rename_i e
      exact errs_errors ms (leave e s)
  | define => exact store_errors _ _ s
  | syntaxError => exact (err_errors _ s).1
  | lost ha => exact Nat.le_succ _

/-- The one that is reported is the first. -/
theorem C54_first_message (m : μ) (ms : List μ) (s : Sess σ μ) (h : s.abort = false) : (snekErrors (m :: ms) s).out = s.out ++ [.error m] := errs_out m ms s h

/-! ## Interrupts -/

/-- With the flag set. -/
def setPend (b : Bool) : ExR σ → ExR σ
  | .ok s p => .ok { s with pend := b } p
  | .error s => .error { s with pend := b }
  | .fault => .fault

theorem exec1_pend (b : Bool) (i : Ins) (push : Bool) (ip0 : Nat) (s : Vm σ) :
    exec1 P i push ip0 { s with pend := b } = setPend b (exec1 P i push ip0 s) := by
  cases i <;> simp only [exec1, Vm.pop, Vm.popN, Vm.popIf, callIns, Vm.res] <;> (repeat' split) <;> (try rfl) <;> simp_all [setPend]

/-- The run of the machine from `vm`, left alone, would have left this behind if it had been cut off after one of its instructions. -/
def CutOff (P : Prim σ) (vm : Vm σ) (e : End σ) : Prop :=
  ∃ vm1, Steps P vm vm1 ∧ (step P vm1 = .abort e ∨ (∃ vm2, step P vm1 = .run vm2 ∧ vm2.end = e) ∨ ∃ v, step P vm1 = .done v e)

theorem cutOff_step {vm vm' : Vm σ} {e : End σ} (h : step P vm = .run vm') (hc : CutOff P vm' e) : CutOff P vm e := by
  obtain ⟨vm1, h1, h2⟩ := hc
  exact ⟨vm1, .step h h1, h2⟩

theorem pushAcc_end (s : Vm σ) : (s.pushAcc P).end = s.end := by
  unfold Vm.pushAcc; split <;> rfl

/-- What the flag does to one step. -/
theorem step_pend (x : Vm σ) : (∀ e, step P { x with pend := true } = .abort e → CutOff P x e) ∧
    (∀ t, step P { x with pend := true } = .run t → ∃ t', step P x = .run t' ∧ t = { t' with pend := true }) := by
  have hr : Steps P x x := .refl x
  unfold step
  by_cases hip : x.ip < x.code.length
  · have hst : step P x = (match exec1 P (fetch P.W x.code x.ip).1 (fetch P.W x.code x.ip).2.1 x.ip { x with ip := (fetch P.W x.code x.ip).2.2 } with
      | .fault => .fault
      | .error s' => .abort s'.end
      | .ok s' push => if x.pend then .abort s'.end else if push then .run (s'.pushAcc P) else .run s') := by
      conv => lhs; unfold step
      rw [if_pos hip]
      rfl
    simp only [if_pos hip]
    have := exec1_pend (P := P) true (fetch P.W x.code x.ip).1 (fetch P.W x.code x.ip).2.1 x.ip { x with ip := (fetch P.W x.code x.ip).2.2 }
    simp only at this
    rw [this]
    generalize exec1 P (fetch P.W x.code x.ip).1 (fetch P.W x.code x.ip).2.1 x.ip { x with ip := (fetch P.W x.code x.ip).2.2 } = r at hst ⊢
    cases r with
    | fault => exact ⟨fun e h => by simp [setPend] at h, fun t h => by simp [setPend] at h⟩
    | error s' =>
      refine ⟨fun e h => ?_, fun t h => by simp [setPend] at h⟩
      simp only [setPend, Out.abort.injEq] at h
      exact ⟨x, hr, .inl (by rw [hst, ← h]; rfl)⟩
    | ok s' p =>
      refine ⟨fun e h => ?_, fun t h => by simp [setPend] at h⟩
      simp only [setPend, if_true, Out.abort.injEq] at h
      refine ⟨x, hr, ?_⟩
      rw [hst, ← h]
      cases hp : x.pend with
      | true => exact .inl rfl
      | false =>
        refine .inr (.inl ?_)
        simp only [Bool.false_eq_true, if_false]
        cases p with
        | true => exact ⟨_, rfl, pushAcc_end s'⟩
        | false => exact ⟨_, rfl, rfl⟩
  · simp only [if_neg hip]
    cases hf : framePop x.fr with
    | mk o fr =>
      cases o with
      | none =>
        refine ⟨fun e h => ?_, fun t h => by simp at h⟩
        simp only [if_true, Out.abort.injEq] at h
        refine ⟨x, hr, ?_⟩
        unfold step
        rw [if_neg hip, hf, ← h]
        simp only
        cases hp : x.pend with
        | true => exact .inl rfl
        | false => exact .inr (.inr ⟨x.acc, rfl⟩)
      | some ci =>
        obtain ⟨c, ip⟩ := ci
        simp only
        split
        · refine ⟨fun e h => by simp at h, fun t h => ?_⟩
          refine ⟨_, rfl, ?_⟩
          rw [← Out.run.inj h]
          unfold Vm.pushAcc
          simp only
          split <;> rfl
        · refine ⟨fun e h => by simp at h, fun t h => ?_⟩
          exact ⟨_, rfl, (Out.run.inj h).symm⟩

theorem runs_cutOff {vm vm' : Vm σ} (hr : Runs P true vm vm') : ∀ (x : Vm σ) (e : End σ), vm = x ∨ vm = { x with pend := true } → step P vm' = .abort e → CutOff P x e := by
  induction hr with
  | refl s =>
    intro x e hx h
    rcases hx with rfl | rfl
    · exact ⟨_, .refl _, .inl h⟩
    · exact (step_pend x).1 e h
  | step h _ ih =>
    intro x e hx he
    rcases hx with rfl | rfl
    · exact cutOff_step h (ih _ e (.inl rfl) he)
    · obtain ⟨t', h1, h2⟩ := (step_pend x).2 _ h
      exact cutOff_step h1 (ih t' e (.inr h2) he)
  | key _ _ ih =>
    intro x e hx he
    rcases hx with rfl | rfl
    · exact ih _ e (.inr rfl) he
    · exact ih x e (.inr rfl) he

theorem step_pend_done (x : Vm σ) (v : Val) (e : End σ) : step P { x with pend := true } ≠ .done v e := by
  unfold step
  simp only
  split
  · have := exec1_pend (P := P) true (fetch P.W x.code x.ip).1 (fetch P.W x.code x.ip).2.1 x.ip { x with ip := (fetch P.W x.code x.ip).2.2 }
    simp only at this
    rw [this]
    cases exec1 P (fetch P.W x.code x.ip).1 (fetch P.W x.code x.ip).2.1 x.ip { x with ip := (fetch P.W x.code x.ip).2.2 } <;> simp [setPend]
  · split
    · simp
    · split <;> simp

theorem runs_done {vm vm' : Vm σ} {intr : Bool} (hr : Runs P intr vm vm') : ∀ (v : Val) (e : End σ), step P vm' = .done v e →
    Steps P vm vm' ∧ ∀ x : Vm σ, vm ≠ { x with pend := true } := by
  induction hr with
  | refl s =>
    intro v e h
    refine ⟨.refl _, fun x hx => ?_⟩
    subst hx
    exact step_pend_done x v e h
  | step h _ ih =>
    intro v e he
    obtain ⟨h1, h2⟩ := ih v e he
    refine ⟨.step h h1, fun x hx => ?_⟩
    subst hx
    obtain ⟨t', _, h4⟩ := (step_pend x).2 _ h
    exact h2 t' h4
  | key _ _ ih =>
    intro v e he
    exact absurd rfl ((ih v e he).2 _)

theorem runs_steps {vm vm' : Vm σ} (hr : Runs P false vm vm') : Steps P vm vm' := by
  induction hr with
  | refl => exact .refl _
  | step h _ ih => exact .step h ih
  | key h => cases h

theorem steps_runs {vm vm' : Vm σ} {intr : Bool} (hr : Steps P vm vm') : Runs P intr vm vm' := by
  induction hr with
  | refl => exact .refl _
  | step h _ ih => exact .step h ih

theorem enter_ready {code : List UInt8} {s : Sess σ μ} (hs : Ready s) (ha : s.abort = false) : enter code s = start code [] ⟨s.globals, s.w, s.line⟩ := by
  unfold enter start; rw [hs.1, hs.2.1, hs.2.2, ha]

/-- ^C stops a command between two instructions, wherever it is typed: either the command does what it does without, or variables and
devices are left as the command had made them after one of its instructions. -/
theorem C54_interrupt {shows : Bool} {code : List UInt8} {s s' : Sess σ μ} (h : Round P true oom under (.cmd shows code) s s') (hs : Ready s) (ha : s.abort = false) :
    Round P false oom under (.cmd shows code) s s' ∨
      ∃ e, CutOff P (start code [] ⟨s.globals, s.w, s.line⟩) e ∧ s'.globals = e.globals ∧ s'.w = e.w ∧ s'.abort = false := by
  cases h with
  | ok h h0 =>
    cases h with
    | done r h => exact .inl (.ok (.done (steps_runs (runs_done r _ _ h).1) h) h0)
    | abort => cases h0
  | stopped h h0 =>
    refine .inr ?_
    cases h with
    | done r h => rw [show (leave _ s).abort = s.abort from rfl, ha] at h0; cases h0
    | abort ms hm r h =>
      rename_i vm e
      rw [enter_ready hs ha] at r
      refine ⟨e, runs_cutOff r _ e (.inl rfl) h, ?_, ?_, rfl⟩
      · exact (errs_same ms (leave e s)).2.2.2.1
      · exact (errs_same ms (leave e s)).2.2.2.2
  | lost h => rw [ha] at h; cases h

/-! ## Sessions -/

variable {conv : BitVec 32 → BitVec 8} {defs : Nat → FunDef}

/-- The code the parser makes of what is typed. -/
def codeOf (W : Nat) (conv : BitVec 32 → BitVec 8) : Typed μ → Input μ
  | .expr l e => .cmd true (emitCommand W conv (.seq (.line l) (.expr e)))
  | .stmts c => .cmd false (emitCommand W conv c)
  | .define x f => .define x f
  | .garbage m => .syntaxError m

/-- The round's result. -/
structure Result (s s' : Sess σ μ) (g : List (Var Val)) (w : σ) (o : List (Option Val)) : Prop where
  ready : Ready s'
  abort : s'.abort = false
  globals : s'.globals = g
  w : s'.w = w
  out : shown s'.out = shown s.out ++ o

theorem exec_ends {code : List UInt8} {s : Sess σ μ} {v : Val} {g : List (Var Val)} {w : σ} (hs : Ready s) (ha : s.abort = false)
    (h : EndsWith P (start code [] ⟨s.globals, s.w, s.line⟩) v g w) :
    (∃ l, Exec P false code s v (leave ⟨g, w, l⟩ s)) ∧ ∀ v' t, Exec P false code s v' t → v' = v ∧ ∃ l, t = leave ⟨g, w, l⟩ s := by
  obtain ⟨vm, l, h1, h2⟩ := h
  refine ⟨⟨l, .done (by rw [enter_ready hs ha]; exact steps_runs h1) h2⟩, fun v' t ht => ?_⟩
  cases ht with
  | done r h =>
    rw [enter_ready hs ha] at r
    have := ends_det h1 h2 (by simp) (runs_steps r) h (by simp)
    simp only [Out.done.injEq] at this
    exact ⟨this.1.symm, l, by rw [← this.2]⟩
  | abort ms hm r h =>
    rw [enter_ready hs ha] at r
    have := ends_det h1 h2 (by simp) (runs_steps r) h (by simp)
    simp at this

theorem exec_stops {code : List UInt8} {s : Sess σ μ} {g : List (Var Val)} {w : σ} (m : μ) (hs : Ready s) (ha : s.abort = false)
    (h : StopsWith P (start code [] ⟨s.globals, s.w, s.line⟩) g w) :
    (∃ v t, Exec P false code s v t ∧ t.abort = true) ∧ ∀ v' t, Exec P false code s v' t → t.abort = true ∧ t.globals = g ∧ t.w = w ∧
      shown t.out = shown s.out ++ [none] := by
  obtain ⟨vm, l, h1, h2⟩ := h
  refine ⟨⟨.num 0, _, .abort [m] (by simp) (by rw [enter_ready hs ha]; exact steps_runs h1) h2, rfl⟩, fun v' t ht => ?_⟩
  cases ht with
  | done r h =>
    rw [enter_ready hs ha] at r
    have := ends_det h1 h2 (by simp) (runs_steps r) h (by simp)
    simp at this
  | abort ms hm r h =>
    rename_i vm' e
    rw [enter_ready hs ha] at r
    have := ends_det h1 h2 (by simp) (runs_steps r) h (by simp)
    simp only [Out.abort.injEq] at this
    subst this
    obtain ⟨_, _, _, h4, h5⟩ := errs_same ms (leave ⟨g, w, l⟩ s)
    refine ⟨rfl, h4, h5, ?_⟩
    cases ms with
    | nil => exact absurd rfl (hm rfl)
    | cons m ms =>
      show shown (snekErrors (m :: ms) (leave _ s)).out = _
      rw [errs_out m ms (leave _ s) ha, shown_append]
      rfl

theorem assign_store {x : Nat} {v : Val} {g g' : List (Var Val)} {w w' : σ} (h : assignId P .plain x v (⟨g, []⟩ : Frames Val Unit) w = (some v, ⟨g', []⟩, w')) :
    storeId P (⟨g, []⟩ : Frames Val (List UInt8)) w x v = (true, ⟨g', []⟩, w') := by
  have he := emb_storeId (⟨[], 0, []⟩ : Ctx) (⟨g, []⟩ : Frames Val Unit) P w x v
  unfold assignId plainStore at h
  simp only [Prod.mk.injEq] at h
  obtain ⟨h1, h2⟩ := h
  have hok : (storeId P (⟨g, []⟩ : Frames Val Unit) w x v).1 = true := by
    revert h1; cases (storeId P (⟨g, []⟩ : Frames Val Unit) w x v).1 <;> simp
  rw [h2, hok] at he
  exact he

theorem round_does (hC : Compiled P conv defs) {i : Typed μ} (wf : TypedWf P.W conv i) {g g' : List (Var Val)} {w w' : σ} {o : List (Option Val)}
    (h : Does P defs under i g w g' w' o) {s : Sess σ μ} (hs : Ready s) (ha : s.abort = false) (hg : s.globals = g) (hw : s.w = w) :
    (∃ s', Round P false oom under (codeOf P.W conv i) s s') ∧ ∀ s', Round P false oom under (codeOf P.W conv i) s s' → Result s s' g' w' o := by
  subst hg hw
  -- a command that stops
  have stops : ∀ (shows : Bool) (code : List UInt8) (g' : List (Var Val)) (w' : σ), StopsWith P (start code [] ⟨s.globals, s.w, s.line⟩) g' w' →
      (∃ s', Round P false oom under (.cmd shows code) s s') ∧ ∀ s', Round P false oom under (.cmd shows code) s s' → Result s s' g' w' [none] := by
    intro shows code g' w' h
    obtain ⟨⟨v, t, h1, h2⟩, h3⟩ := exec_stops oom hs ha h
    refine ⟨⟨_, .stopped h1 h2⟩, fun s' hr => ?_⟩
    have hrd := round_ready hr hs
    cases hr with
    | ok h h0 => rw [(h3 _ _ h).1] at h0; cases h0
    | stopped h h0 =>
      obtain ⟨_, h4, h5, h6⟩ := h3 _ _ h
      exact ⟨hrd, rfl, h4, h5, h6⟩
    | lost h => rw [ha] at h; cases h
  -- a command that ends and shows nothing
  have quiet : ∀ (shows : Bool) (code : List UInt8) (v : Val) (g' : List (Var Val)) (w' : σ), EndsWith P (start code [] ⟨s.globals, s.w, s.line⟩) v g' w' →
      (shows = true → v = Val.none) →
      (∃ s', Round P false oom under (.cmd shows code) s s') ∧ ∀ s', Round P false oom under (.cmd shows code) s s' → Result s s' g' w' [] := by
    intro shows code v g' w' h hq
    obtain ⟨⟨l, h1⟩, h3⟩ := exec_ends hs ha h
    refine ⟨⟨_, .ok h1 ha⟩, fun s' hr => ?_⟩
    have hrd := round_ready hr hs
    cases hr with
    | ok h h0 =>
      obtain ⟨hv', l', rfl⟩ := h3 _ _ h
      rw [hv'] at hrd ⊢
      have hn : ¬ (shows = true ∧ v ≠ Val.none) := fun h => h.2 (hq h.1)
      rw [if_neg hn] at hrd ⊢
      exact ⟨hrd, ha, rfl, rfl, by simp [leave]⟩
    | stopped h h0 =>
      obtain ⟨rfl, l', rfl⟩ := h3 _ _ h
      rw [show (leave _ s).abort = s.abort from rfl, ha] at h0; cases h0
    | lost h => rw [ha] at h; cases h
  cases h with
  | value h hv hst =>
    rename_i n l e v t
    have hE := raw_exprCommand hC wf ⟨s.globals, s.w, s.line⟩ n
    rw [h] at hE
    obtain ⟨vm', e1, e2⟩ := hE
    obtain ⟨⟨l', h1⟩, h3⟩ := exec_ends hs ha ⟨vm', _, e1, e2⟩
    have hst' := assign_store hst
    refine ⟨⟨_, .ok h1 ha⟩, fun s' hr => ?_⟩
    have hrd := round_ready hr hs
    unfold codeOf at hr
    cases hr with
    | ok h h0 =>
      obtain ⟨hv', l', rfl⟩ := h3 _ _ h
      rw [hv'] at hrd ⊢
      rw [if_pos ⟨rfl, hv⟩] at hrd ⊢
      have e : store P oom under v (leave ⟨t.fr.globals, t.w, l'⟩ s) = { leave ⟨t.fr.globals, t.w, l'⟩ s with globals := g', frames := [], w := w' } := by
        unfold store
        have : storeId P (⟨(leave ⟨t.fr.globals, t.w, l'⟩ s).globals, (leave ⟨t.fr.globals, t.w, l'⟩ s).frames⟩ : Frames Val (List UInt8))
          (leave ⟨t.fr.globals, t.w, l'⟩ s).w under v = (true, ⟨g', []⟩, w') := hst'
        rw [this]
      unfold echo at hrd ⊢
      rw [e] at hrd ⊢
      refine ⟨hrd, ha, rfl, rfl, ?_⟩
      show shown (s.out ++ [.value v]) = _
      rw [shown_append]; rfl
    | stopped h h0 =>
      obtain ⟨rfl, l', rfl⟩ := h3 _ _ h
      rw [show (leave _ s).abort = s.abort from rfl, ha] at h0; cases h0
    | lost h => rw [ha] at h; cases h
  | noValue h =>
    rename_i n l e t
    have hE := raw_exprCommand hC wf ⟨s.globals, s.w, s.line⟩ n
    rw [h] at hE
    obtain ⟨vm', e1, e2⟩ := hE
    exact quiet _ _ _ _ _ ⟨vm', _, e1, e2⟩ (fun _ => rfl)
  | exprFails h =>
    rename_i n l e
    have hE := raw_exprCommand hC wf ⟨s.globals, s.w, s.line⟩ n
    rw [h] at hE
    obtain ⟨vm', ⟨g', w', ln⟩, h1, h2, rfl, rfl⟩ := hE
    exact stops _ _ _ _ ⟨vm', ln, h1, h2⟩
  | finishes h =>
    rename_i n c t
    have hE := raw_command_ends hC wf ⟨s.globals, s.w, s.line⟩ n
    rw [h] at hE
    obtain ⟨v, hE⟩ := hE
    exact quiet _ _ _ _ _ hE (fun h => by cases h)
  | returns h =>
    rename_i n c v t
    have hE := raw_command_ends hC wf ⟨s.globals, s.w, s.line⟩ n
    rw [h] at hE
    exact quiet _ _ _ _ _ hE (fun h => by cases h)
  | fails h =>
    rename_i n c
    have hE := raw_command_ends hC wf ⟨s.globals, s.w, s.line⟩ n
    rw [h] at hE
    exact stops _ _ _ _ hE
  | strayBreak h hf =>
    rename_i n c t f
    have hE := raw_command_ends hC wf ⟨s.globals, s.w, s.line⟩ n
    rw [h] at hE
    rcases hf with rfl | rfl <;> exact stops _ _ _ _ hE
  | define hst =>
    rename_i x f
    have hst' := assign_store hst
    have e : store P oom x f s = { s with globals := g', frames := [], w := w' } := by
      unfold store
      rw [hs.2.2, hst']
    refine ⟨⟨_, .define⟩, fun s' hr => ?_⟩
    have hrd := round_ready hr hs
    unfold codeOf at hr
    cases hr with
    | define => rw [e] at hrd ⊢; exact ⟨hrd, ha, rfl, rfl, by simp⟩
    | lost h => rw [ha] at h; cases h
  | garbage =>
    rename_i m
    refine ⟨⟨_, .syntaxError⟩, fun s' hr => ?_⟩
    have hrd := round_ready hr hs
    unfold codeOf at hr
    cases hr with
    | syntaxError =>
      obtain ⟨_, _, _, h4, h5⟩ := err_same m s
      refine ⟨hrd, rfl, h4, h5, ?_⟩
      show shown (snekErrors [m] s).out = _
      rw [errs_out m [] s ha, shown_append]; rfl
    | lost h => rw [ha] at h; cases h

/-- A session at the prompt: whatever errors there were before, each command acts on the variables and the world it finds as its meaning says,
and shows its value or one error message. The session is possible, and nothing else is. -/
theorem C54_session (hC : Compiled P conv defs) {l : List (Typed μ)} (wf : ∀ i ∈ l, TypedWf P.W conv i) {g g' : List (Var Val)} {w w' : σ} {o : List (Option Val)}
    (h : Session P defs under l g w g' w' o) {s : Sess σ μ} (hs : Ready s) (ha : s.abort = false) (hg : s.globals = g) (hw : s.w = w) :
    (∃ s', Hist P false oom under (l.map (codeOf P.W conv)) s s') ∧ ∀ s', Hist P false oom under (l.map (codeOf P.W conv)) s s' →
      Ready s' ∧ s'.abort = false ∧ s'.globals = g' ∧ s'.w = w' ∧ shown s'.out = shown s.out ++ o := by
  induction h generalizing s with
  | nil =>
    refine ⟨⟨_, .nil _⟩, fun s' h => ?_⟩
    cases h
    exact ⟨hs, ha, hg, hw, by simp⟩
  | cons h r ih =>
    obtain ⟨⟨t, h1⟩, h2⟩ := round_does (oom := oom) hC (wf _ (by simp)) h hs ha hg hw
    have ht := h2 t h1
    have ih' := fun {s} => @ih (fun i hi => wf i (by simp [hi])) s
    obtain ⟨⟨u, h3⟩, _⟩ := ih' ht.ready ht.abort ht.globals ht.w
    refine ⟨⟨u, .cons h1 h3⟩, fun s' hh => ?_⟩
    cases hh with
    | cons k1 k2 =>
      have kt := h2 _ k1
      obtain ⟨a, b, c, d, e⟩ := (ih' kt.ready kt.abort kt.globals kt.w).2 s' k2
      exact ⟨a, b, c, d, by rw [e, kt.out, List.append_assoc]⟩

/-- While the error flag is set no command shows anything. -/
theorem lingering {intr : Bool} {shows : Bool} {code : List UInt8} {s s' : Sess σ μ} (ha : s.abort = true) (h : Round P intr oom under (.cmd shows code) s s') :
    s'.out = s.out := by
  have hp : enter code s = { enter code s with pend := true } := by unfold enter; rw [ha]
  cases h with
  | ok h h0 =>
    cases h with
    | done r h => exact absurd hp ((runs_done r _ _ h).2 _)
    | abort => cases h0
  | stopped h h0 =>
    cases h with
    | done => rfl
    | abort ms hm r h =>
      rename_i e
      show (snekErrors ms (leave e s)).out = _
      rw [errs_aborted ms (leave e s) ha]; rfl
  | lost => rfl

end

/-! ## The hypotheses can be met -/

namespace Demo
open Snek.Lang.Demo

/-- `print(1) + undefined`, a line that is no command, `break`, then `fact(3) - 1`. `_` is name 2. -/
def typed : List (Typed String) :=
  [.expr 1 (.binary .plus (.call (.name 1) (.cons (.num (lit 1)) .nil) .nil) (.name 77)), .garbage "syntax error", .stmts (.seq (.line 1) .brk),
    .expr 1 (.binary .minus (.call (.name 5) (.cons (.num (lit 3)) .nil) .nil) (.num (lit 1)))]

/-- Three error messages, then 5; `print` has printed 1; `_` is 5. -/
example : ∃ s' : Sess Log String, Hist P false "no memory" 2 (typed.map (codeOf P.W (fun _ => 0))) (boot globals []) s' ∧
    Ready s' ∧ s'.globals = globals ++ [⟨num 5, 2⟩] ∧ s'.w = [num 1] ∧ shown s'.out = [none, none, none, some (num 5)] := by
  have h1 : ∃ g, evalE P defs 40 0 (.binary .plus (.call (.name 1) (.cons (.num (lit 1)) .nil) .nil) (.name 77)) ⟨⟨globals, []⟩, []⟩ = .err g [num 1] ∧ g = globals := by
    have hv : (match evalE P defs 40 0 (.binary .plus (.call (.name 1) (.cons (.num (lit 1)) .nil) .nil) (.name 77)) ⟨⟨globals, []⟩, []⟩ with
      | .err g w => some (g, w) | _ => none) = some (globals, [num 1]) := by decide +kernel
    revert hv
    generalize evalE P defs 40 0 (.binary .plus (.call (.name 1) (.cons (.num (lit 1)) .nil) .nil) (.name 77)) ⟨⟨globals, []⟩, []⟩ = r
    cases r <;> simp
  obtain ⟨g, h1, rfl⟩ := h1
  have h2 : ∃ t, evalE P defs 40 0 (.binary .minus (.call (.name 5) (.cons (.num (lit 3)) .nil) .nil) (.num (lit 1))) ⟨⟨globals, []⟩, [num 1]⟩ = .ok (num 5) t ∧
      t.fr.globals = globals ∧ t.w = [num 1] := by
    have hv : (match evalE P defs 40 0 (.binary .minus (.call (.name 5) (.cons (.num (lit 3)) .nil) .nil) (.num (lit 1))) ⟨⟨globals, []⟩, [num 1]⟩ with
      | .ok v t => some (v, t.fr.globals, t.w) | _ => none) = some (num 5, globals, [num 1]) := by decide +kernel
    revert hv
    generalize evalE P defs 40 0 (.binary .minus (.call (.name 5) (.cons (.num (lit 3)) .nil) .nil) (.num (lit 1))) ⟨⟨globals, []⟩, [num 1]⟩ = r
    cases r <;> simp
    exact fun a b c => ⟨_, ⟨a, rfl⟩, b, c⟩
  obtain ⟨t, h2, h3, h4⟩ := h2
  have hses : Session P defs 2 typed globals [] (globals ++ [⟨num 5, 2⟩]) [num 1] ([none] ++ ([none] ++ ([none] ++ ([some (num 5)] ++ [])))) :=
    .cons (.exprFails h1) (.cons .garbage (.cons (.strayBreak (n := 2) (f := .brk) (t := ⟨⟨globals, []⟩, [num 1]⟩) (by simp [execS, R.bind]) (.inl rfl))
      (.cons (.value h2 (by decide) (by rw [h3, h4]; rfl)) .nil)))
  obtain ⟨⟨s', hs'⟩, hall⟩ := C54_session (oom := "no memory") compiled (by
    intro i hi
    simp only [typed, List.mem_cons, List.not_mem_nil, or_false] at hi
    rcases hi with rfl | rfl | rfl | rfl
    · exact ⟨by simp [WfS, WfE, WfArgs, WfNamed, Snek.Lang.Demo.P, prim, Exprs.length, Named.length]; decide +kernel, rfl, by decide +kernel⟩
    · trivial
    · exact ⟨by simp [WfS, Snek.Lang.Demo.P, prim], rfl, by decide +kernel⟩
    · exact ⟨by simp [WfS, WfE, WfArgs, WfNamed, Snek.Lang.Demo.P, prim, Exprs.length, Named.length]; decide +kernel, rfl, by decide +kernel⟩)
    hses (s := boot globals []) ⟨rfl, rfl, rfl⟩ rfl rfl rfl
  obtain ⟨a, b, c, d, e⟩ := hall s' hs'
  exact ⟨s', hs', a, c, d, e⟩

/-- ^C while `fact(3) - 1` is computed. -/
example : ∃ s' : Sess Log String, Round P true "no memory" 2 (codeOf P.W (fun _ => 0) (.expr 1 (.binary .minus (.call (.name 5) (.cons (.num (lit 3)) .nil) .nil) (.num (lit 1)))))
    (boot globals []) s' ∧ s'.out = [] ∧ s'.globals = globals := by
  have h : (match step P { enter (emitCommand P.W (fun _ => 0) (.seq (.line 1) (.expr (.binary .minus (.call (.name 5) (.cons (.num (lit 3)) .nil) .nil) (.num (lit 1))))))
      (boot globals [] : Sess Log String) with pend := true } with
      | .abort e => some (e.globals, e.w) | _ => none) = some (globals, []) := by decide +kernel
  generalize he : step P { enter (emitCommand P.W (fun _ => 0) (.seq (.line 1) (.expr (.binary .minus (.call (.name 5) (.cons (.num (lit 3)) .nil) .nil) (.num (lit 1))))))
      (boot globals [] : Sess Log String) with pend := true } = o at h
  cases o with
  | abort e =>
    simp only [Option.some.injEq, Prod.mk.injEq] at h
    exact ⟨_, .stopped (v := .num 0) (.abort [] (by simp) (.key rfl (.refl _)) he) rfl, rfl, h.1⟩
  | run => simp at h
  | done => simp at h
  | fault => simp at h

/-- The same machine without memory for variables. -/
def full : Prim Log := { P with varAlloc := fun w => (false, false, w) }

/-- If there is no memory for `_`, the value is shown after the error message, and then the next command is lost: it is not run to its end and
no message says so. -/
theorem C54_violated_lingering : ∃ s' : Sess Log String,
    Round full false "no memory" 2 (codeOf full.W (fun _ => 0) (.expr 1 (.num (lit 3)))) (boot globals []) s' ∧ shown s'.out = [none, some (num 3)] ∧ s'.abort = true ∧
      ∀ shows code t, Round full false "no memory" 2 (.cmd shows code) s' t → t.out = s'.out := by
  have hv : (match Snek.Lang.Demo.run full 10 (start (emitCommand full.W (fun _ => 0) (.seq (.line 1) (.expr (.num (lit 3))))) [] ⟨globals, [], 0⟩) with
      | .done v e => some (v, e.globals, e.w) | _ => none) = some (num 3, globals, []) := by decide +kernel
  generalize ho : Snek.Lang.Demo.run full 10 (start (emitCommand full.W (fun _ => 0) (.seq (.line 1) (.expr (.num (lit 3))))) [] ⟨globals, [], 0⟩) = o at hv
  cases o with
  | done v e =>
    simp only [Option.some.injEq, Prod.mk.injEq] at hv
    obtain ⟨rfl, h2, h3⟩ := hv
    obtain ⟨vm, l, h4, h5⟩ := run_done 10 _ ho
    have hb : (echo full "no memory" 2 (num 3) (leave ⟨e.globals, e.w, l⟩ (boot globals [] : Sess Log String))).out = [.error "no memory", .value (num 3)] ∧
        (echo full "no memory" 2 (num 3) (leave ⟨e.globals, e.w, l⟩ (boot globals [] : Sess Log String))).abort = true := by
      rw [h2, h3]
      exact ⟨rfl, rfl⟩
    refine ⟨_, .ok (.done (steps_runs h4) h5) rfl, ?_, ?_, fun shows code t h => ?_⟩
    · rw [if_pos ⟨rfl, by decide⟩, hb.1]; rfl
    · rw [if_pos ⟨rfl, by decide⟩]; exact hb.2
    · rw [if_pos ⟨rfl, by decide⟩] at h ⊢
      exact lingering hb.2 h
  | run => simp at hv
  | abort => simp at hv
  | fault => simp at hv

end Demo
end Snek.Session
