import Verif.Proofs.Halt
import Verif.Props.C69
/-!
# C72: programs that do not end

`while True:` is how most programs on these boards are written. The evaluator (`Spec.Lang`) says what such a program has done when it is
stopped early: with fuel `n` it is cut off with certain globals in a certain world.
-/
namespace Snek.Lang
open Store (Val)
open Snek.Vm

section
variable {σ : Type} {P : Prim σ} {conv : BitVec 32 → BitVec 8} {defs : Nat → FunDef}

/-- What the program has done when its evaluation is cut off anywhere is what the machine has done at some moment. -/
theorem C72_does_all (hC : Compiled P conv defs) {c : Stmt} (wf : CmdWf P.W conv c) (e : End σ) {n : Nat} {g w}
    (h : execS P defs n 0 0 c ⟨⟨e.globals, []⟩, e.w⟩ = .time g w) :
    ∃ vm', Steps P (start (emitCommand P.W conv c) [] e) vm' ∧ vm'.fr.globals = g ∧ vm'.w = w := by
  have := raw_command_ends hC wf e n
  rw [h] at this; exact this

/-- A command that does not end keeps the machine busy: whatever state it gets to, it goes on (no end, no error, no fault). -/
theorem C72_goes_on (hC : Compiled P conv defs) {c : Stmt} (wf : CmdWf P.W conv c) (e : End σ) (h : Endless P defs c e.globals e.w)
    {vm' : Vm σ} (hs : Steps P (start (emitCommand P.W conv c) [] e) vm') : ∃ vm'', step P vm' = .run vm'' := by
  obtain ⟨k, hk⟩ := far_ahead hs
  obtain ⟨N, hN⟩ := command_trm hC wf e k
  have := hN N (Nat.le_refl _)
  obtain ⟨g, w, hr⟩ := h N
  rw [hr] at this
  obtain ⟨vm2, h1, -⟩ := this
  exact (hk _ h1).2

/-- And the machine does nothing else: from wherever it is it gets to the points where the evaluation is cut off, for all fuels that are
large enough. -/
theorem C72_does_only (hC : Compiled P conv defs) {c : Stmt} (wf : CmdWf P.W conv c) (e : End σ) (h : Endless P defs c e.globals e.w)
    {vm' : Vm σ} (hs : Steps P (start (emitCommand P.W conv c) [] e) vm') :
    ∃ N, ∀ n, N ≤ n → ∃ vm'', Steps P vm' vm'' ∧ execS P defs n 0 0 c ⟨⟨e.globals, []⟩, e.w⟩ = .time vm''.fr.globals vm''.w := by
  obtain ⟨k, hk⟩ := far_ahead hs
  obtain ⟨N, hN⟩ := command_trm hC wf e k
  refine ⟨N, fun n hn => ?_⟩
  have := hN n hn
  obtain ⟨g, w, hr⟩ := h n
  rw [hr] at this ⊢
  obtain ⟨vm2, h1, h2, h3⟩ := this
  exact ⟨vm2, (hk _ h1).1, by rw [h2, h3]⟩

/-- The run of a command comes to an end of some kind if and only if the command's evaluation does. -/
theorem C72_ends_iff (hC : Compiled P conv defs) {c : Stmt} (wf : CmdWf P.W conv c) (e : End σ) :
    (∃ vm', Steps P (start (emitCommand P.W conv c) [] e) vm' ∧ ∀ t, step P vm' ≠ .run t) ↔ ¬ Endless P defs c e.globals e.w := by
  constructor
  · rintro ⟨vm', h1, h2⟩ h
    obtain ⟨t, ht⟩ := C72_goes_on hC wf e h h1
    exact h2 t ht
  · intro h
    obtain ⟨n, hn⟩ := Classical.not_forall.1 h
    have hx := raw_command_ends hC wf e n
    revert hn hx
    cases execS P defs n 0 0 c ⟨⟨e.globals, []⟩, e.w⟩ with
    | time g w => exact fun hn => absurd ⟨g, w, rfl⟩ hn
    | over =>
      rintro - ⟨vm', h1, h2⟩
      obtain ⟨vm'', h3, h4⟩ := pend_ends (P := P) h2
      refine ⟨vm'', h1.trans h3, fun t ht => ?_⟩
      rcases h4 with h4 | ⟨e', h4⟩ <;> rw [h4] at ht <;> cases ht
    | err g w =>
      rintro - ⟨vm', l, h1, h2⟩
      exact ⟨vm', h1, by simp [h2]⟩
    | ok f t =>
      intro _ hx
      cases f with
      | normal => obtain ⟨v, vm', l, h1, h2⟩ := hx; exact ⟨vm', h1, by simp [h2]⟩
      | ret v => obtain ⟨vm', l, h1, h2⟩ := hx; exact ⟨vm', h1, by simp [h2]⟩
      | brk => obtain ⟨vm', l, h1, h2⟩ := hx; exact ⟨vm', h1, by simp [h2]⟩
      | cont => obtain ⟨vm', l, h1, h2⟩ := hx; exact ⟨vm', h1, by simp [h2]⟩

end

/-! ## The hypotheses can be met -/

namespace Demo
variable (defs : Nat → FunDef) (sig : Nat → FuncSig)

/-- `print(7)` -/
abbrev body7 : Stmt := .seq (.line 2) (.expr (.call (.name 1) (.cons (.num (lit 7)) .nil) .nil))

/-- `while 1: print(7)` -/
def forever : Stmt := .seq (.line 2) (.whil (.num (lit 1)) body7 .skip)

/-- The body prints 7, with any fuel from 8 on. -/
theorem body7_does (n : Nat) (w : Log) :
    execS (prim 256 defs sig) defs (n + 8) 0 0 body7 ⟨⟨[], []⟩, w⟩ = .ok .normal ⟨⟨[], []⟩, w ++ [num 7]⟩ := by
  have hl : loadName (prim 256 defs sig) (⟨[], []⟩ : Frames Val Unit) 1 = some (Val.builtin 4) := rfl
  have ht : (Val.builtin 4).type = .builtin := by decide +kernel
  have hcb : ∀ a b c w, (prim 256 defs sig).callBuiltin a b c w = (some Val.none, w ++ b) := fun _ _ _ _ => rfl
  have hcap : (prim 256 defs sig).cap = 256 := rfl
  have h : execS (prim 256 defs sig) defs 8 0 0 body7 ⟨⟨[], []⟩, w⟩ = .ok .normal ⟨⟨[], []⟩, w ++ [num 7]⟩ := by
    simp [execS, evalE, evalArgs, evalNamed, callV, needRoom, R.bind, hl, ht, hcb, hcap, St.prim, num]
  exact R.le_eq (le_more (r := fun n => execS (prim 256 defs sig) defs n 0 0 body7 ⟨⟨[], []⟩, w⟩)
    (fun n => (mono (prim 256 defs sig) defs n).2.2.2.2.2.2.2.1 _ _ _ _) (by omega : 8 ≤ n + 8)) h rfl

theorem loop7 (n : Nat) (w : Log) : execWhile (prim 256 defs sig) defs (n + 9) 0 0 (.num (lit 1)) body7 .skip ⟨⟨[], []⟩, w⟩ =
    execWhile (prim 256 defs sig) defs (n + 8) 0 0 (.num (lit 1)) body7 .skip ⟨⟨[], []⟩, w ++ [num 7]⟩ := by
  have hc : evalE (prim 256 defs sig) defs (n + 8) 0 (.num (lit 1)) ⟨⟨[], []⟩, w⟩ = .ok (num 1) ⟨⟨[], []⟩, w⟩ := by rw [evalE]; rfl
  have ht : (prim 256 defs sig).truth w (num 1) = true := by simp [prim]; decide
  rw [execWhile, hc]
  simp only [R.bind]
  rw [if_pos ht, body7_does]

/-- With 8 more fuel than `n` it has printed `n` times 7 (or more), and is cut off. -/
theorem prints7 (n : Nat) (w : Log) :
    ∃ m, execWhile (prim 256 defs sig) defs (n + 8) 0 0 (.num (lit 1)) body7 .skip ⟨⟨[], []⟩, w⟩ = .time [] m ∧
      (w ++ List.replicate n (num 7)) <+: m := by
  induction n generalizing w with
  | zero =>
    have hl : loadName (prim 256 defs sig) (⟨[], []⟩ : Frames Val Unit) 1 = some (Val.builtin 4) := rfl
    have ht : (Val.builtin 4).type = .builtin := by decide +kernel
    have hcb : ∀ a b c w, (prim 256 defs sig).callBuiltin a b c w = (some Val.none, w ++ b) := fun _ _ _ _ => rfl
    have hcap : (prim 256 defs sig).cap = 256 := rfl
    have htr : ∀ w, (prim 256 defs sig).truth w (.num (lit 1)) = true := by simp [prim]; decide
    have h : execWhile (prim 256 defs sig) defs 8 0 0 (.num (lit 1)) body7 .skip ⟨⟨[], []⟩, w⟩ = .time [] (w ++ [num 7] ++ [num 7] ++ [num 7]) := by
      simp [execWhile, execS, evalE, evalArgs, evalNamed, callV, needRoom, R.bind, hl, ht, htr, hcb, hcap, St.prim, num]
    exact ⟨_, h, by simp⟩
  | succ n ih =>
    obtain ⟨m, h, h'⟩ := ih (w ++ [num 7])
    exact ⟨m, by rw [show n + 1 + 8 = n + 9 by omega, loop7, h], by simpa [List.replicate_succ] using h'⟩

/-- The command too. -/
theorem forever_prints (n : Nat) (w : Log) :
    ∃ m, execS (prim 256 defs sig) defs (n + 10) 0 0 forever ⟨⟨[], []⟩, w⟩ = .time [] m ∧ w ++ List.replicate n (num 7) <+: m := by
  obtain ⟨m, h, h'⟩ := prints7 defs sig n w
  refine ⟨m, ?_, h'⟩
  rw [forever, execS, execS, R.bind, execS]
  exact h

theorem forever_endless (w : Log) : Endless (prim 256 defs sig) defs forever [] w := by
  intro n
  by_cases h : (execS (prim 256 defs sig) defs n 0 0 forever ⟨⟨[], []⟩, w⟩).cut = true
  · revert h
    cases execS (prim 256 defs sig) defs n 0 0 forever ⟨⟨[], []⟩, w⟩ with
    | time g w => exact fun _ => ⟨g, w, rfl⟩
    | _ => simp [R.cut]
  · obtain ⟨m, h1, -⟩ := forever_prints defs sig n w
    have := le_more (r := fun n => execS (prim 256 defs sig) defs n 0 0 forever ⟨⟨[], []⟩, w⟩)
      (fun n => (mono (prim 256 defs sig) defs n).2.2.2.2.2.2.2.1 _ _ _ _) (by omega : n ≤ n + 10)
    rcases this with h2 | h2
    · exact absurd h2 h
    · exact ⟨_, _, h2.trans h1⟩

theorem forever_wf : CmdWf P.W (fun _ => 0) forever :=
  ⟨by simp [forever, WfS, WfE, WfArgs, WfNamed, P, prim, Exprs.length, Named.length]; decide +kernel, rfl, by decide +kernel⟩

/-- The machine runs on, and at some moment has printed as many sevens as one likes. -/
example : ∀ vm', Steps P (start (emitCommand 2 (fun _ => 0) forever) [] ⟨[], [], 0⟩) vm' → ∃ vm'', step P vm' = .run vm'' :=
  fun _ h => C72_goes_on compiled forever_wf ⟨[], [], 0⟩ (forever_endless _ _ []) h

example (n : Nat) : ∃ vm', Steps P (start (emitCommand 2 (fun _ => 0) forever) [] ⟨[], [], 0⟩) vm' ∧ List.replicate n (num 7) <+: vm'.w := by
  obtain ⟨m, h, h'⟩ := forever_prints Demo.defs Demo.sig n []
  obtain ⟨vm', h1, -, h2⟩ := C72_does_all compiled forever_wf ⟨[], [], 0⟩ h
  exact ⟨vm', h1, h2 ▸ h'⟩

end Demo
end Snek.Lang

namespace Snek.Session
open Store (Val)
open Snek.Vm Snek.Lang Snek.Lex Snek.Parse Spec.Layout Spec.Program

section
variable {σ μ : Type} {P : Prim σ} {conv : BitVec 32 → BitVec 8} {defs : Nat → FunDef} {oom : μ} {place : Nat → Val}

/-- What comes after the first commands. -/
theorem acts_split {n : Nat} {l1 l2 : List Cmd} {s s' : Sess σ μ} (h : Acts P conv oom place n (l1 ++ l2) s s') :
    ∃ t, Acts P conv oom place n l1 s t ∧ (t.abort = true ∨ Acts P conv oom place (n + l1.length) l2 t s') := by
  induction l1 generalizing n s with
  | nil => exact ⟨s, .nil _ _, .inr h⟩
  | cons c l ih =>
    cases h with
    | cons h1 h2 h3 =>
      obtain ⟨t, h4, h5⟩ := ih h3
      exact ⟨t, .cons h1 h2 h4, h5.imp_right fun h => by rw [List.length_cons, show n + (l.length + 1) = n + 1 + l.length by omega]; exact h⟩
    | stop h1 h2 => exact ⟨_, .stop h1 h2, .inl h2⟩

theorem acts_ready {n : Nat} {l : List Cmd} {s s' : Sess σ μ} (h : Acts P conv oom place n l s s') (hs : Ready s) : Ready s' := by
  induction h with
  | nil => exact hs
  | cons h1 h2 h3 ih =>
    cases h1 with
    | stat h => exact ih (exec_ready h hs.1)
    | fn => exact ih (store_ready hs)
    | imp => exact ih hs
  | stop h1 h2 =>
    cases h1 with
    | stat h => exact exec_ready h hs.1
    | fn => exact store_ready hs
    | imp => exact hs

/-- A program in a file that gets to a statement that does not end: loading the file never comes to an end. The commands before take effect,
and the machine then executes the statement for ever, as the theorems above describe. -/
theorem C72_file (hC : Compiled P conv defs) (C : Cfg) (hi : C.interactive = false) (hm : 12 ≤ C.maxTok)
    (id : List Ch → Nat) (num : List Ch → BitVec 32) (str : List Ch → Nat)
    (ls : List (Nat × Src)) (text : List Ch) (last : Nat) (f : File C 1 ls text last) (hz : 0 ∉ text) (h256 : ∀ l ∈ ls, l.1 < 256)
    {is : List (Spec.Layout.Item Src)} (hb : blocks [0] ls = some is) {before after : List Cmd} {c : Stmt}
    (hp : Forms (.prog (before ++ .stat c :: after)) ((tokensOf last is).map fun p => (ofTok id num str p.1, p.2)))
    (wf : ∀ c', Cmd.stat c' ∈ before ++ .stat c :: after → StatOk P.W conv c')
    {s : Sess σ μ} (hs : Ready s) {g : List (Var Val)} {w : σ} (h : Program P defs place 0 before s.globals s.w g w false) (he : Endless P defs c g w) :
    (∀ s', ¬ Load P conv oom place C id num str text s s') ∧
      ∃ s1, Acts P conv oom place 0 before (reset s) s1 ∧ s1.globals = g ∧ s1.w = w ∧ shown s1.out = shown s.out ∧
        ∀ vm', Steps P (enter (emitCommand P.W conv c) s1) vm' →
          (∃ vm'', step P vm' = .run vm'') ∧
          ∃ N, ∀ n, N ≤ n → ∃ vm'', Steps P vm' vm'' ∧ execS P defs n 0 0 c ⟨⟨g, []⟩, w⟩ = .time vm''.fr.globals vm''.w := by
  have ha := acts_does (oom := oom) hC h (fun c hc => ⟨wf c (by simp [hc]), prog_line hp c (by simp [hc])⟩) (s := reset s) hs rfl rfl rfl
  obtain ⟨k0, hk⟩ := (C61_program_partial C hi hm id num str ls text last f hz h256 _).2 ⟨is, hb, hp⟩
  have hl : startsLine c = true := by
    rcases prog_line hp c (by simp) with rfl | h
    · obtain ⟨g', w', h1⟩ := he 1
      rw [execS] at h1; cases h1
    · exact h
  have wfc : CmdWf P.W conv c := ⟨(wf c (by simp)).wf, hl, (wf c (by simp)).small⟩
  have hen : ∀ t : Sess σ μ, Ready t → t.abort = false → t.globals = g → t.w = w →
      enter (emitCommand P.W conv c) t = Vm.start (emitCommand P.W conv c) [] ⟨g, w, t.line⟩ := by
    rintro t ⟨h1, h2, h3⟩ h4 rfl rfl
    simp [enter, Vm.start, h1, h2, h3, h4]
  have hrun : ∀ t : Sess σ μ, Ready t → t.abort = false → t.globals = g → t.w = w →
      ∀ vm', Steps P (enter (emitCommand P.W conv c) t) vm' → (∃ vm'', step P vm' = .run vm'') ∧
          ∃ N, ∀ n, N ≤ n → ∃ vm'', Steps P vm' vm'' ∧ execS P defs n 0 0 c ⟨⟨g, []⟩, w⟩ = .time vm''.fr.globals vm''.w := by
    intro t h1 h2 h3 h4 vm' hst
    rw [hen t h1 h2 h3 h4] at hst
    exact ⟨C72_goes_on hC wfc ⟨g, w, t.line⟩ he hst, C72_does_only hC wfc ⟨g, w, t.line⟩ he hst⟩
  constructor
  · rintro s' ⟨k, cs', h1, h2⟩
    cases C61_unique C id num str text k k0 cs' _ h1 (hk k0 (Nat.le_refl _))
    obtain ⟨t, h3, h4⟩ := acts_split h2
    obtain ⟨a1, a2, a3, -⟩ := ha.2 t h3
    have hr := acts_ready h3 hs
    have key : ∀ u, ¬ Act P conv oom (place (0 + before.length)) (.stat c) t u := by
      intro u hu
      cases hu with
      | stat hu =>
        cases hu with
        | done r hd =>
          obtain ⟨⟨x, hx⟩, -⟩ := hrun t hr a1 a2 a3 _ (runs_steps r)
          rw [hd] at hx; cases hx
        | abort ms hm r hd =>
          obtain ⟨⟨x, hx⟩, -⟩ := hrun t hr a1 a2 a3 _ (runs_steps r)
          rw [hd] at hx; cases hx
    rcases h4 with h4 | h4
    · rw [a1] at h4; cases h4
    · cases h4 with
      | cons h5 => exact key _ h5
      | stop h5 => exact key _ h5
  · obtain ⟨s1, h1⟩ := ha.1
    obtain ⟨a1, a2, a3, a4⟩ := ha.2 s1 h1
    exact ⟨s1, h1, a2, a3, by simpa [reset] using a4, hrun s1 (acts_ready h1 hs) a1 a2 a3⟩

end

namespace Demo
open Snek.Lang.Demo Spec.Spelling

/-- A number is printed, then another one for ever. -/
def source2 : List Ch := [
  112, 40, 49, 41, 10,                                                     -- p(1)
  119, 104, 105, 108, 101, 32, 49, 58, 32, 112, 40, 55, 41, 10]              -- while 1: p(7)

/-- The program. -/
def prog2 : List Cmd := [.stat (.seq (.line 1) (.expr (.call (.name 1) (.cons (.num (intToF 1)) .nil) .nil))), .stat forever]

theorem reads2 : program ⟨false, 255, true⟩ id num (fun _ => 0) 400 source2 = some prog2 := by
  have h : tokens ⟨false, 255, true⟩ 400 (Lex.St.init source2) [] = some (some [(.name [112], 1), (.op, 1), (.number [49], 1), (.cp, 1), (.nl, 2),
     (.kw .while_, 2), (.number [49], 2), (.colon, 2), (.name [112], 2), (.op, 2), (.number [55], 2), (.cp, 2), (.nl, 3), (.eof, 3)]) := by decide +kernel
  rw [program, h]
  show start 400 _ = _
  with_unfolding_all rfl

/-- The lines of the file. -/
def lines2 : List (Nat × Src) :=
  [(0, ⟨1, [(.name [112], 1), (.op, 1), (.number [49], 1), (.cp, 1), (.nl, 2)]⟩),
   (0, ⟨2, [(.kw .while_, 2), (.number [49], 2), (.colon, 2), (.name [112], 2), (.op, 2), (.number [55], 2), (.cp, 2), (.nl, 3)]⟩)]

theorem file2 : File ⟨false, 255, true⟩ 1 lines2 source2 3 := by
  have hdig : ∀ c : Ch, 48 ≤ c → c ≤ 57 → Numeral [c] [] [] := fun c h1 h2 => ⟨⟨c, [], rfl, ⟨h1, h2⟩, by simp⟩, .inl rfl, .inl rfl⟩
  have kwl : ∀ p ∈ keywords, 2 ≤ p.1.length := by decide +kernel
  have nm : ∀ {c d : Ch} {rest}, (97 ≤ c ∧ c ≤ 122) → EndsWord d → Spells ⟨false, 255, true⟩ [c] (.name [c]) (d :: rest) := fun {c d rest} hc hd =>
    .name ⟨c, [], rfl, .inr (.inr (.inr hc)), by simp⟩
      (fun p hp e => absurd (e ▸ kwl p hp) (by simp)) (by intro h; cases h) (by intro h; cases h) (by simp) hd
  have fx : ∀ {w : List Ch} {t : Tok} {c : Ch} {rest}, (w, t) ∈ Spec.Spelling.fixed true → ((Spec.Spelling.fixed true).all fun p => !(w ++ [c]).isPrefixOf p.1) = true →
      Spells ⟨false, 255, true⟩ w t (c :: rest) := fun {w t c rest} h1 h2 => .fixed h1 fun p hp h => by
    have := List.all_eq_true.1 h2 p hp
    rw [List.isPrefixOf_iff_prefix.2 h] at this
    cases this
  have dg : ∀ {c d : Ch} {rest}, 48 ≤ c → c ≤ 57 → ¬ Continues [] [] d → Spells ⟨false, 255, true⟩ [c] (.number [c]) (d :: rest) := fun {c d rest} h1 h2 h3 =>
    have hc : c ≠ 95 := by rintro rfl; revert h2; decide
    by simpa [hc] using Spells.number (C := ⟨false, 255, true⟩) (rest := rest) (hdig c h1 h2) h3 (by simp [hc])
  have t0 : Text ⟨false, 255, true⟩ 0 1 [112, 40, 49, 41, 10] (lines2[0]'(by decide)).2.toks 2 :=
    .token (w := [112]) (by decide) (nm (by decide) (by unfold EndsWord; decide)) (
    .token (w := [40]) (by decide) (fx (by decide +kernel) (by decide +kernel)) (
    .token (w := [49]) (by decide) (dg (by decide) (by decide) (by simp [Continues, Digit])) (
    .token (w := [41]) (by decide) (fx (by decide +kernel) (by decide +kernel)) (
    .newline 1))))
  have t1 : Text ⟨false, 255, true⟩ 0 2 [119, 104, 105, 108, 101, 32, 49, 58, 32, 112, 40, 55, 41, 10] (lines2[1]'(by decide)).2.toks 3 :=
    .token (w := [119, 104, 105, 108, 101]) (by decide) (.keyword (by decide +kernel) (by unfold EndsWord; decide)) (
    .space (
    .token (w := [49]) (by decide) (dg (by decide) (by decide) (by simp [Continues, Digit])) (
    .token (w := [58]) (by decide) (fx (by decide +kernel) (by decide +kernel)) (
    .space (
    .token (w := [112]) (by decide) (nm (by decide) (by unfold EndsWord; decide)) (
    .token (w := [40]) (by decide) (fx (by decide +kernel) (by decide +kernel)) (
    .token (w := [55]) (by decide) (dg (by decide) (by decide) (by simp [Continues, Digit])) (
    .token (w := [41]) (by decide) (fx (by decide +kernel) (by decide +kernel)) (
    .newline 2)))))))))
  have e : source2 = [] ++ (List.replicate 0 32 ++ (112 :: [40, 49, 41, 10] ++ ([] ++ (List.replicate 0 32 ++ (119 :: [104, 105, 108, 101, 32, 49, 58, 32, 112, 40, 55, 41, 10] ++ ([])))))) := rfl
  rw [e]
  exact .cons (n' := 2) (c := 112) .nil (by decide) (by decide) (by decide) t0 (.cons (n' := 3) (c := 119) .nil (by decide) (by decide) (by decide) t1 (.nil .nil))

/-- Loading this file does not end. -/
example : ∀ s' : Sess Log Unit, ¬ Load P (fun _ => 0) () (fun _ => fn 8) ⟨false, 255, true⟩ id num (fun _ => 0) source2 (boot [] []) s' := by
  obtain ⟨is, hb, hp⟩ := C61_only ⟨false, 255, true⟩ rfl (by decide) id num (fun _ => 0) lines2 source2 3 file2 (by decide) (by decide) 400 prog2 reads2
  have wf : ∀ c, Cmd.stat c ∈ prog2 → StatOk P.W (fun _ => 0) c := by
    intro c hc
    simp only [prog2, List.mem_cons, List.not_mem_nil, or_false, Cmd.stat.injEq] at hc
    rcases hc with rfl | rfl <;> refine ⟨?_, by decide +kernel⟩ <;>
      simp [forever, WfS, WfE, WfArgs, WfNamed, P, Snek.Lang.Demo.prim, Exprs.length, Named.length] <;> decide +kernel
  have h1 : Program P defs (fun _ => fn 8) 0 (prog2.take 1) [] [] [] [.num (intToF 1)] false :=
    .finishes (k := 40) (t := ⟨⟨[], []⟩, [.num (intToF 1)]⟩) (by with_unfolding_all rfl) .done
  exact (C72_file (oom := ()) (before := prog2.take 1) (after := []) compiled ⟨false, 255, true⟩ rfl (by decide) id num (fun _ => 0) lines2 source2 3 file2 (by decide) (by decide)
    hb hp wf (s := boot [] []) ⟨rfl, rfl, rfl⟩ h1 (forever_endless _ _ _)).1

end Demo
end Snek.Session
