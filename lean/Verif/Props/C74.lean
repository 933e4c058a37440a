import Verif.Proofs.Machine
import Verif.Proofs.DemoMachine
import Verif.Props.C73
/-!
# C74 Programs do not corrupt memory
-/
namespace Snek.Machine
open Store (Val S Ok VOk)
open Snek.Vm Snek.Lang

variable {κ : Type} {C : Cfg κ}

/-- Between commands: memory is in order, the variables hold proper values, and the string constants of the functions (`strs`) exist. -/
structure Ready (C : Cfg κ) (strs : Nat → Prop) (e : End (World κ)) : Prop where
  mem : InOrder C e.w
  globals : ∀ x ∈ e.globals, Proper C e.w.st x.value
  strs : ∀ o, strs o → ∃ b, e.w.st.bytes o = some b

theorem proper_iff {s : S} {v : Val} : Proper C s v ↔ Store.POk (Function C) s v := by
  cases v with
  | builtin i =>
    constructor
    · intro h
      rcases h.2 i rfl with h | h
      · exact .inl h
      · exact .inr (by injection h)
    · rintro (h | h)
      · exact ⟨trivial, fun off ho => by cases ho; exact .inl h⟩
      · exact ⟨trivial, fun off ho => .inr (by rw [h]; rfl)⟩
  | num u => exact ⟨fun _ => trivial, fun _ => ⟨trivial, fun _ h => by cases h⟩⟩
  | func u => exact ⟨fun _ => trivial, fun _ => ⟨trivial, fun _ h => by cases h⟩⟩
  | str u => exact ⟨fun h => h.1, fun h => ⟨h, fun _ h => by cases h⟩⟩
  | list u => exact ⟨fun h => h.1, fun h => ⟨h, fun _ h => by cases h⟩⟩

theorem wok_iff {w : World κ} : WOk C w ↔ InOrder C w := by
  constructor
  · intro h; exact ⟨h.tame, h.ok, fun i o ho v hv => proper_iff.2 (h.rel.words trivial i o ho v hv)⟩
  · intro h
    exact ⟨h.storage, ⟨.refl _, fun _ _ h _ => h, fun _ i o ho v hv => proper_iff.1 (h.words i o ho v hv),
      fun i hi => let ⟨o, h1, h2, _, h4⟩ := h.storage.2 i hi; ⟨o, h1, h2, h4⟩⟩, h.tame⟩

section
variable {sig : Nat → FuncSig} {code : Nat → List UInt8} {conv : BitVec 32 → BitVec 8} {defs : Nat → FunDef} {c : Stmt}

/-- The string constants of a command and the functions. -/
def Strings (defs : Nat → FunDef) (c : Stmt) (o : Nat) : Prop := o ∈ strsS c ∨ ∃ k, o ∈ Spec.Flow.strsF (defs k)

theorem steps_good (hA : C.A.Valid) (hC : Compiled (prim C sig code) conv defs) (wf : CmdWf (prim C sig code).W conv c)
    {e : End (World κ)} (he : Clean C e.w → Ready C (Strings defs c) e) {s : Vm (World κ)}
    (hs : Steps (prim C sig code) (start (emitCommand (prim C sig code).W conv c) [] e) s) :
    Good (MI C) (MV C) s ∧ MT C e.w s.w := by
  have H := machine_closed hA sig code
  suffices h : ∀ a b, Steps (prim C sig code) a b → Steps (prim C sig code) (start (emitCommand (prim C sig code).W conv c) [] e) a →
      Good (MI C) (MV C) a ∧ MT C e.w a.w → Good (MI C) (MV C) b ∧ MT C e.w b.w by
    refine h _ _ hs (.refl _) ⟨⟨fun hc => wok_iff.2 (he hc).mem, fun _ => .inr rfl, by simp [start], ?_, by simp [start]⟩, .refl _⟩
    exact fun x hx hc => proper_iff.1 ((he hc).globals x hx)
  intro a b hab
  induction hab with
  | refl s => exact fun _ h => h
  | step hst _ ih =>
    intro hsa ha
    have hstr := C73_strings_partial hC wf e hsa
    have := step_good H ha.1 fun hlt o ho hc => by
      obtain ⟨b, hb⟩ := (he (ha.2.clean hc)).strs o (hstr hlt ho)
      exact ⟨b, (ha.2.2 hc).str o b hb⟩
    rw [hst] at this
    exact ih (hsa.trans (.step hst (.refl _))) ⟨this.1, ha.2.trans this.2⟩

/-- Whatever command is run, whatever the allocator answers, whatever the devices and the functions of the C library do: at every moment
no operation has accessed memory outside of the objects, lists have the storage they claim, and everything the program can reach -
accumulator, value stack, global and local variables, the elements of lists - is a proper value (a reference to an existing object of
its kind, or an entry of the table of builtins).

Missing with respect to the full statement: the things `Fine` excludes (see `C74_violated_none`; C13 has examples for sizes); reading
below the bottom of the stack (C58). -/
theorem C74_memory_safe_partial (hA : C.A.Valid) (hC : Compiled (prim C sig code) conv defs) (wf : CmdWf (prim C sig code).W conv c)
    {e : End (World κ)} (he : Ready C (Strings defs c) e) {s : Vm (World κ)}
    (hs : Steps (prim C sig code) (start (emitCommand (prim C sig code).W conv c) [] e) s) (hc : Clean C s.w) :
    InOrder C s.w ∧ Proper C s.w.st s.acc ∧ (∀ v ∈ s.stack, Proper C s.w.st v) ∧
    (∀ x ∈ s.fr.globals, Proper C s.w.st x.value) ∧
    ∀ f ∈ s.fr.frames, ∀ x ∈ f.vars, Proper C s.w.st x.value ∨ x.value = Val.global := by
  obtain ⟨h, -⟩ := steps_good hA hC wf (fun _ => he) hs
  exact ⟨wok_iff.1 (h.inv hc), proper_iff.2 (h.acc hc), fun v hv => proper_iff.2 (h.stack v hv hc),
    fun x hx => proper_iff.2 (h.fr.glob x hx hc), fun f hf x hx => (h.fr.loc f hf x hx).imp (fun h => proper_iff.2 (h hc)) id⟩

theorem next_ready (hA : C.A.Valid) (hC : Compiled (prim C sig code) conv defs) (wf : CmdWf (prim C sig code).W conv c)
    {strs : Nat → Prop} {e : End (World κ)} (hsub : ∀ o, Strings defs c o → strs o) (he : Clean C e.w → Ready C strs e) {s : Vm (World κ)}
    (hs : Steps (prim C sig code) (start (emitCommand (prim C sig code).W conv c) [] e) s) {e' : End (World κ)}
    (hend : (∃ v, step (prim C sig code) s = .done v e') ∨ step (prim C sig code) s = .abort e') (hc : Clean C e'.w) : Ready C strs e' := by
  have H := machine_closed hA sig code
  obtain ⟨h, ht⟩ := steps_good hA hC wf (fun hc => ⟨(he hc).mem, (he hc).globals, fun o ho => (he hc).strs o (hsub o ho)⟩) hs
  have hstr := C73_strings_partial hC wf e hs
  have := step_good H h fun hlt o ho hc => by
    obtain ⟨b, hb⟩ := (he (ht.clean hc)).strs o (hsub o (hstr hlt ho))
    exact ⟨b, (ht.2 hc).str o b hb⟩
  have key : MI C e'.w ∧ (∀ x ∈ e'.globals, MV C e'.w x.value) ∧ MT C s.w e'.w := by
    rcases hend with ⟨v, hd⟩ | hd
    · rw [hd] at this; exact ⟨this.1, this.2.2.1, this.2.2.2⟩
    · rw [hd] at this; exact this
  have hte := ht.trans key.2.2
  exact ⟨wok_iff.1 (key.1 hc), fun x hx => proper_iff.2 (key.2.1 x hx hc), fun o ho => by
    obtain ⟨b, hb⟩ := (he (hte.clean hc)).strs o ho
    exact ⟨b, (hte.2 hc).str o b hb⟩⟩

/-- The same when the command has finished or failed: the next command finds memory in order. All strings are still there. -/
theorem C74_next_command_partial (hA : C.A.Valid) (hC : Compiled (prim C sig code) conv defs) (wf : CmdWf (prim C sig code).W conv c)
    {strs : Nat → Prop} {e : End (World κ)} (hsub : ∀ o, Strings defs c o → strs o) (he : Ready C strs e) {s : Vm (World κ)}
    (hs : Steps (prim C sig code) (start (emitCommand (prim C sig code).W conv c) [] e) s) {e' : End (World κ)}
    (hend : (∃ v, step (prim C sig code) s = .done v e') ∨ step (prim C sig code) s = .abort e') (hc : Clean C e'.w) : Ready C strs e' :=
  next_ready hA hC wf hsub (fun _ => he) hs hend hc

/-- What can happen to the interpreter between power-on and some moment between two commands; `strs` are the string constants made so
far. Each command may run with other functions than the ones before it. -/
inductive History (C : Cfg κ) : (Nat → Prop) → End (World κ) → Prop
  /-- empty memory, no variables -/
  | start (mem : Nat → Nat → Bool) (dev : κ) (line : Nat) : History C (fun _ => False) ⟨[], ⟨S.start mem, [], dev, false, []⟩, line⟩
  /-- a string constant is read (snek-lex.c:277-295) -/
  | text {strs e} (b : List UInt8) {o w} (h : History C strs e)
      (hr : (e.w.note (.text b)).run (fun s => Store.newStr (env C) s b) = (some (.str o), w)) :
      History C (fun i => strs i ∨ i = o) { e with w := w }
  /-- there is no memory for it -/
  | noText {strs e} (b : List UInt8) {w} (h : History C strs e)
      (hr : (e.w.note (.text b)).run (fun s => Store.newStr (env C) s b) = (none, w)) : History C strs { e with w := w }
  /-- `def`: function `k` is stored in name `x` -/
  | define {strs e} (k x : Nat) (okL okG : Bool) (h : History C strs e) :
      History C strs { e with globals := (idStore (⟨e.globals, []⟩ : Frames Val Unit) x (.func k) okL okG).2.globals }
  /-- a command is run, to its end or to an error -/
  | run {strs e} {sig : Nat → FuncSig} {code : Nat → List UInt8} {conv : BitVec 32 → BitVec 8} {defs : Nat → FunDef} {c : Stmt}
      {s : Vm (World κ)} {e' : End (World κ)} (h : History C strs e) (hC : Compiled (prim C sig code) conv defs)
      (wf : CmdWf (prim C sig code).W conv c) (hsub : ∀ o, Strings defs c o → strs o)
      (hs : Steps (prim C sig code) (start (emitCommand (prim C sig code).W conv c) [] e) s)
      (hend : (∃ v, step (prim C sig code) s = .done v e') ∨ step (prim C sig code) s = .abort e') : History C strs e'

theorem text_ready {strs : Nat → Prop} {e : End (World κ)} (h : Clean C e.w → Ready C strs e) (b : List UInt8) {r : Option Val} {w : World κ}
    (hr : (e.w.note (.text b)).run (fun s => Store.newStr (env C) s b) = (r, w)) (hc : Clean C w) :
    Ready C strs { e with w := w } ∧ ∀ o, r = some (.str o) → ∃ b, w.st.bytes o = some b := by
  have := text_keep (C := C) (w := e.w) b fun hc => wok_iff.2 (h hc).mem
  rw [hr] at this
  obtain ⟨h1, h2, h3⟩ := this
  have he := h (h1.clean hc)
  exact ⟨⟨wok_iff.1 (h2 hc), fun x hx => proper_iff.2 ((h1.2 hc).pok (proper_iff.1 (he.globals x hx))), fun o ho => by
    obtain ⟨b, hb⟩ := he.strs o ho
    exact ⟨b, (h1.2 hc).str o b hb⟩⟩, fun o ho => h3 _ ho hc⟩

/-- Memory is in order at every moment between commands, after any history from power-on on. -/
theorem C74_history_partial (hA : C.A.Valid) {strs : Nat → Prop} {e : End (World κ)} (h : History C strs e) (hc : Clean C e.w) :
    Ready C strs e := by
  suffices hx : Clean C e.w → Ready C strs e from hx hc
  clear hc
  induction h with
  | start mem dev line =>
    intro _
    refine ⟨⟨rfl, Store.start_ok mem, fun i o h => ?_⟩, fun x hx => ?_, fun o h => h.elim⟩
    · simp [S.start, S.lst] at h
    · cases hx
  | text b _ hr ih =>
    intro hc
    obtain ⟨h1, h2⟩ := text_ready ih b hr hc
    refine ⟨h1.mem, h1.globals, fun o ho => ?_⟩
    rcases ho with ho | rfl
    · exact h1.strs o ho
    · exact h2 _ rfl
  | noText b _ hr ih => exact fun hc => (text_ready ih b hr hc).1
  | @define strs e k x okL okG _ ih =>
    intro hc
    have h1 := ih hc
    refine ⟨h1.mem, fun y hy => ?_, h1.strs⟩
    have hf : FrOk (Proper C e.w.st) (⟨e.globals, []⟩ : Frames Val Unit) := ⟨h1.globals, fun f hf => by cases hf⟩
    exact (hf.idStore (proper_iff.2 trivial) x (v := .func k) (proper_iff.2 trivial) okL okG).glob y hy
  | run h hC wf hsub hs hend ih =>
    exact next_ready hA hC wf hsub ih hs hend

end

namespace Demo
open Snek.Lang.Demo (lit run run_done)

/-! ## The hypotheses can be met -/

theorem ready (mem : Nat → Nat → Bool) : Ready cfg (Strings defs cmd) (begin_ mem) := by
  refine ⟨⟨rfl, ⟨fun i o h => ?_, fun i h => by cases h⟩, fun i o h => ?_⟩, fun x hx => ?_, fun o ho => ?_⟩
  · rcases i with _ | i <;> simp [begin_, st, S.lst] at h
  · rcases i with _ | i <;> simp [begin_, st, S.lst] at h
  · simp only [begin_, List.mem_singleton] at hx
    subst hx
    exact ⟨trivial, fun _ h => by cases h⟩
  · have : o = 0 := by
      rcases ho with ho | ⟨k, ho⟩
      · simpa [cmd, strsS, strsE, strsA, strsN] using ho
      · simp [defs, Spec.Flow.strsF, strsS, strsE, strsN, strsO] at ho
    subst this
    exact ⟨[104, 105], rfl⟩

example (mem : Nat → Nat → Bool) {s : Vm (World Unit)} (hs : Steps P (start (emitCommand 2 (fun _ => 0) cmd) [] (begin_ mem)) s)
    (hc : Clean cfg s.w) : InOrder cfg s.w := (C74_memory_safe_partial Arch.avr_valid compiled cmd_wf (ready mem) hs hc).1

/-- The program runs: with memory it prints `2 2`, without it fails. -/
example : printed (run P 100 (start (emitCommand 2 (fun _ => 0) cmd) [] (begin_ fun _ _ => true))) = some ([50, 32, 50, 10], false) ∧
    failed (run P 100 (start (emitCommand 2 (fun _ => 0) cmd) [] (begin_ fun t _ => t < 4))) = some ([], false) := by
  decide +kernel

/-- A check that implies `Fine`, for displays, sums of lists, indexing and calls. -/
def fine : Ev → Bool
  | .op (.build .list l) _ => decide ((l.length + l.length / 8 + 6) * 4 < 2 ^ 16)
  | .op (.arith .plus _ (.list i) (.list j)) s =>
    match s.lst i, s.lst j with
    | some x, some y => decide ((x.size + y.size + (x.size + y.size) / 8 + 6) * 4 < 2 ^ 16)
    | _, _ => false
  | .op (.index _ _) _ => true
  | .call off => off ≠ 0x7ffffc && off ≠ 0
  | _ => false

theorem fine_ok {ev : Ev} (h : fine ev = true) : Fine cfg ev := by
  unfold fine at h
  split at h
  · simp only [decide_eq_true_eq] at h
    exact ⟨h, fun h => by cases h⟩
  · split at h
    · rename_i x y hx hy
      intro x' y' hx' hy'
      rw [hx] at hx'; rw [hy] at hy'
      cases hx'; cases hy'
      simp only [decide_eq_true_eq] at h
      exact h
    · cases h
  · trivial
  · simpa [Fine] using h
  · cases h

/-- What happened in a finished run. -/
def happened : Out (World Unit) → List Ev
  | .done _ e => e.w.hist
  | _ => []

theorem all_fine {l : List Ev} (h : l.all fine = true) : ∀ ev ∈ l, Fine cfg ev := fun ev hev => fine_ok (List.all_eq_true.1 h ev hev)

/-- All that happens in that run is fine: a display, a sum of lists, one element read, two calls. -/
example : (∀ ev ∈ happened (run P 100 (start (emitCommand 2 (fun _ => 0) cmd) [] (begin_ fun _ _ => true))), Fine cfg ev) ∧
    (happened (run P 100 (start (emitCommand 2 (fun _ => 0) cmd) [] (begin_ fun _ _ => true)))).length = 5 :=
  ⟨all_fine (by decide +kernel), by decide +kernel⟩

/-- A history: power on, read `'hi'`, define `double`, run the command. It prints `2 2`. -/
example : ∃ strs e, History cfg strs e ∧ e.w.out = [50, 32, 50, 10] ∧ ∀ o, Strings defs cmd o → strs o := by
  have h1 := History.text (C := cfg) [104, 105] (o := 0)
    (w := ⟨{ st (fun _ _ => true) with clock := 1 }, [], (), false, [.text [104, 105]]⟩) (.start (fun _ _ => true) () 0) rfl
  have h2 := History.define 0 11 true true h1
  have hs : ∀ o, Strings defs cmd o → (fun i => False ∨ i = 0) o := fun o ho => by
    rcases ho with ho | ⟨k, ho⟩
    · simpa [cmd, strsS, strsE, strsA, strsN] using ho
    · simp [defs, Spec.Flow.strsF, strsS, strsE, strsN, strsO] at ho
  generalize hb : (End.mk _ _ _ : End (World Unit)) = e0 at h2
  have hr : printed (run P 100 (start (emitCommand 2 (fun _ => 0) cmd) [] e0)) = some ([50, 32, 50, 10], false) := by
    subst hb
    decide +kernel
  cases ho : run P 100 (start (emitCommand 2 (fun _ => 0) cmd) [] e0) with
  | done v e =>
    rw [ho] at hr
    simp only [printed, Option.some.injEq, Prod.mk.injEq] at hr
    obtain ⟨vm', l, h3, h4⟩ := run_done 100 _ ho
    exact ⟨_, _, .run h2 compiled cmd_wf hs h3 (.inl ⟨_, h4⟩), hr.1, hs⟩
  | _ => rw [ho] at hr; cases hr

/-! ## The code is wrong when None is called -/

/-- `None()`: the entry of the table of builtins is looked up with no check that there is one, and the machine jumps to whatever address
is found far behind the table. (The other things `Fine` excludes: `C13_violated_times`, `C13_violated_string`; a list that contains itself
is printed for ever, C57.) -/
theorem C74_violated_none :
    failed (run P 100 (start (emitCommand 2 (fun _ => 0) (.seq (.line 1) (.expr (.call (.name 3) .nil .nil)))) [] (begin_ fun _ _ => true))) =
      some ([], true) := by decide +kernel

end Demo
end Snek.Machine
