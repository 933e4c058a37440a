import Verif.Model.Load
import Verif.Spec.File
import Verif.Props.C54
import Verif.Props.C61
/-!
# C69: a program file does what its text says
-/
namespace Snek.Session
open Store (Val)
open Snek.Vm Snek.Lang Snek.Lex Snek.Parse Spec.Layout Spec.Program

section
variable {σ μ : Type} {P : Prim σ} {conv : BitVec 32 → BitVec 8} {defs : Nat → FunDef} {oom : μ} {place : Nat → Val}

/-- A statement that is not empty starts with its line. -/
theorem stat_line {s t} (h : Forms (.stat s) t) : s = .skip ∨ startsLine s = true := by
  cases h with
  | blank => exact .inl rfl
  | stat h => cases h; exact .inr rfl
  | _ => exact .inr rfl

theorem prog_line {cs t} (h : Forms (.prog cs) t) : ∀ s, Cmd.stat s ∈ cs → s = .skip ∨ startsLine s = true := by
  generalize hc : SCat.prog cs = c at h
  induction h generalizing cs with
  | done => cases hc; simp
  | more h1 h2 _ ih =>
    cases hc
    intro s hs
    rcases List.mem_cons.1 hs with e | hs
    · subst e; cases h1; rename_i h; exact stat_line h
    · exact ih rfl s hs
  | _ => cases hc

theorem skip_ends (g : List (Var Val)) (w : σ) (l : Nat) : EndsWith P (Vm.start (emitCommand P.W conv .skip) [] ⟨g, w, l⟩) Val.none g w :=
  ⟨_, l, .refl _, rfl⟩

/-- What the actions of one statement do. -/
theorem stat_ends (hC : Compiled P conv defs) {s : Stmt} (wf : StatOk P.W conv s) (hl : s = .skip ∨ startsLine s = true) (e : End σ) (n : Nat) :
    match execS P defs n 0 0 s ⟨⟨e.globals, []⟩, e.w⟩ with
    | .ok .normal t => ∃ v, EndsWith P (Vm.start (emitCommand P.W conv s) [] e) v t.fr.globals t.w
    | .ok (.ret v) t => EndsWith P (Vm.start (emitCommand P.W conv s) [] e) v t.fr.globals t.w
    | .ok _ t => StopsWith P (Vm.start (emitCommand P.W conv s) [] e) t.fr.globals t.w
    | .err g w => StopsWith P (Vm.start (emitCommand P.W conv s) [] e) g w
    | .over => True
    | .time _ _ => True := by
  rcases hl with rfl | hl
  · cases n with
    | zero => rw [execS]; trivial
    | succ n => rw [execS]; exact ⟨_, skip_ends e.globals e.w e.line⟩
  · have := raw_command_ends hC ⟨wf.wf, hl, wf.small⟩ e n
    revert this
    cases execS P defs n 0 0 s ⟨⟨e.globals, []⟩, e.w⟩ with
    | over => simp
    | ok f t => cases f <;> exact id
    | time => simp
    | _ => exact id

/-- The commands do what the program says. -/
theorem acts_does (hC : Compiled P conv defs) {n : Nat} {cs : List Cmd} {g g' : List (Var Val)} {w w' : σ} {b : Bool}
    (h : Program P defs place n cs g w g' w' b) (wf : ∀ s, Cmd.stat s ∈ cs → StatOk P.W conv s ∧ (s = .skip ∨ startsLine s = true))
    {s : Sess σ μ} (hs : Ready s) (ha : s.abort = false) (hg : s.globals = g) (hw : s.w = w) :
    (∃ s', Acts P conv oom place n cs s s') ∧ ∀ s', Acts P conv oom place n cs s s' →
      s'.abort = b ∧ s'.globals = g' ∧ s'.w = w' ∧ shown s'.out = shown s.out ++ if b then [none] else [] := by
  induction h generalizing s with
  | done =>
    refine ⟨⟨_, .nil _ _⟩, fun s' h => ?_⟩
    cases h
    exact ⟨ha, hg, hw, by simp⟩
  | finishes h r ih =>
    rename_i n k c l g w t g' w' b
    subst hg hw
    have he := stat_ends hC (wf c (by simp)).1 (wf c (by simp)).2 ⟨s.globals, s.w, s.line⟩ k
    rw [h] at he
    obtain ⟨v, he⟩ := he
    obtain ⟨⟨l', h1⟩, h3⟩ := exec_ends hs ha he
    have ih' := fun l' => ih (fun s hs => wf s (by simp [hs])) (s := leave ⟨t.fr.globals, t.w, l'⟩ s) ⟨hs.1, rfl, rfl⟩ ha rfl rfl
    refine ⟨⟨_, .cons (.stat h1) ha (ih' l').1.choose_spec⟩, fun s' hh => ?_⟩
    cases hh with
    | cons k1 k2 k3 =>
      cases k1 with
      | stat k1 =>
        obtain ⟨rfl, l'', rfl⟩ := h3 _ _ k1
        exact (ih' l'').2 s' k3
    | stop k1 k2 =>
      cases k1 with
      | stat k1 =>
        obtain ⟨rfl, l'', rfl⟩ := h3 _ _ k1
        rw [show (leave _ s).abort = s.abort from rfl, ha] at k2; cases k2
  | returns h r ih =>
    rename_i n k c l g w v t g' w' b
    subst hg hw
    have he := stat_ends hC (wf c (by simp)).1 (wf c (by simp)).2 ⟨s.globals, s.w, s.line⟩ k
    rw [h] at he
    obtain ⟨⟨l', h1⟩, h3⟩ := exec_ends hs ha he
    have ih' := fun l' => ih (fun s hs => wf s (by simp [hs])) (s := leave ⟨t.fr.globals, t.w, l'⟩ s) ⟨hs.1, rfl, rfl⟩ ha rfl rfl
    refine ⟨⟨_, .cons (.stat h1) ha (ih' l').1.choose_spec⟩, fun s' hh => ?_⟩
    cases hh with
    | cons k1 k2 k3 =>
      cases k1 with
      | stat k1 =>
        obtain ⟨rfl, l'', rfl⟩ := h3 _ _ k1
        exact (ih' l'').2 s' k3
    | stop k1 k2 =>
      cases k1 with
      | stat k1 =>
        obtain ⟨rfl, l'', rfl⟩ := h3 _ _ k1
        rw [show (leave _ s).abort = s.abort from rfl, ha] at k2; cases k2
  | fails h =>
    rename_i n k c l g w g' w'
    subst hg hw
    have he := stat_ends hC (wf c (by simp)).1 (wf c (by simp)).2 ⟨s.globals, s.w, s.line⟩ k
    rw [h] at he
    obtain ⟨⟨v, t, h1, h2⟩, h3⟩ := exec_stops oom hs ha he
    refine ⟨⟨_, .stop (.stat h1) h2⟩, fun s' hh => ?_⟩
    cases hh with
    | cons k1 k2 k3 => cases k1 with | stat k1 => rw [(h3 _ _ k1).1] at k2; cases k2
    | stop k1 k2 => cases k1 with | stat k1 => exact h3 _ _ k1
  | strayBreak h hf =>
    rename_i n k c l g w t f
    subst hg hw
    have he := stat_ends hC (wf c (by simp)).1 (wf c (by simp)).2 ⟨s.globals, s.w, s.line⟩ k
    rw [h] at he
    have he : StopsWith P (Vm.start (emitCommand P.W conv c) [] ⟨s.globals, s.w, s.line⟩) t.fr.globals t.w := by rcases hf with rfl | rfl <;> exact he
    obtain ⟨⟨v, t, h1, h2⟩, h3⟩ := exec_stops oom hs ha he
    refine ⟨⟨_, .stop (.stat h1) h2⟩, fun s' hh => ?_⟩
    cases hh with
    | cons k1 k2 k3 => cases k1 with | stat k1 => rw [(h3 _ _ k1).1] at k2; cases k2
    | stop k1 k2 => cases k1 with | stat k1 => exact h3 _ _ k1
  | define ht hd hsig h r ih =>
    rename_i n x xs d l g w g1 w1 g' w' b
    subst hg hw
    have e : store P oom x (place n) s = { s with globals := g1, frames := [], w := w1 } := by
      unfold store
      rw [hs.2.2, assign_store h]
    have ih' := ih (fun s hs => wf s (by simp [hs])) (s := store P oom x (place n) s) (store_ready hs) (by rw [e]; exact ha) (by rw [e]) (by rw [e])
    have ho : (store P oom x (place n) s).out = s.out := by rw [e]
    rw [ho] at ih'
    refine ⟨⟨_, .cons (.fn ht (by rw [hC.code, hd]) hsig) (by rw [e]; exact ha) ih'.1.choose_spec⟩, fun s' hh => ?_⟩
    cases hh with
    | cons k1 k2 k3 => cases k1 with | fn => exact ih'.2 s' k3
    | stop k1 k2 => cases k1 with | fn => rw [e] at k2; rw [show ({ s with globals := g1, frames := [], w := w1 } : Sess σ μ).abort = s.abort from rfl, ha] at k2; cases k2
  | imp r ih =>
    have ih' := ih (fun s hs => wf s (by simp [hs])) hs ha hg hw
    refine ⟨⟨_, .cons .imp ha ih'.1.choose_spec⟩, fun s' hh => ?_⟩
    cases hh with
    | cons k1 k2 k3 => cases k1 with | imp => exact ih'.2 s' k3
    | stop k1 k2 => cases k1 with | imp => rw [ha] at k2; cases k2

/-- From characters to effects: if the lines of the file are well nested, and their tokens form a program, then loading the file does to the
global variables and the world exactly what the program means. It prints one error message if the program fails, and none otherwise. -/
theorem C69_file_partial (hC : Compiled P conv defs) (C : Cfg) (hi : C.interactive = false) (hm : 12 ≤ C.maxTok)
    (id : List Ch → Nat) (num : List Ch → BitVec 32) (str : List Ch → Nat)
    (ls : List (Nat × Src)) (text : List Ch) (last : Nat) (f : File C 1 ls text last) (hz : 0 ∉ text) (h256 : ∀ l ∈ ls, l.1 < 256)
    {is : List (Spec.Layout.Item Src)} (hb : blocks [0] ls = some is) {cs : List Cmd}
    (hp : Forms (.prog cs) ((tokensOf last is).map fun p => (ofTok id num str p.1, p.2)))
    (wf : ∀ c, Cmd.stat c ∈ cs → StatOk P.W conv c)
    {s : Sess σ μ} (hs : Ready s) {g' : List (Var Val)} {w' : σ} {failed : Bool} (h : Program P defs place 0 cs s.globals s.w g' w' failed) :
    (∃ s', Load P conv oom place C id num str text s s') ∧ ∀ s', Load P conv oom place C id num str text s s' →
      s'.globals = g' ∧ s'.w = w' ∧ shown s'.out = shown s.out ++ if failed then [none] else [] := by
  have ha := acts_does (oom := oom) hC h (fun c hc => ⟨wf c hc, prog_line hp c hc⟩) (s := reset s) hs rfl rfl rfl
  obtain ⟨k0, hk⟩ := (C61_program_partial C hi hm id num str ls text last f hz h256 cs).2 ⟨is, hb, hp⟩
  refine ⟨⟨_, .mk k0 cs (hk k0 (Nat.le_refl _)) ha.1.choose_spec⟩, fun s' hl => ?_⟩
  obtain ⟨k, cs', h1, h2⟩ := hl
  cases C61_unique C id num str text k k0 cs' cs h1 (hk k0 (Nat.le_refl _))
  exact (ha.2 s' h2).2

end

/-! ## A program -/

namespace Demo
open Snek.Lang.Demo Spec.Spelling

/-- The factorial of 3 is printed, then an unknown variable ends the program. -/
def source : List Ch := [
  100, 101, 102, 32, 102, 40, 110, 41, 58, 10,                                     -- def f(n):
  32, 105, 102, 32, 110, 60, 50, 58, 32, 114, 101, 116, 117, 114, 110, 32, 49, 10,   --  if n<2: return 1
  32, 114, 101, 116, 117, 114, 110, 32, 110, 42, 102, 40, 110, 45, 49, 41, 10,       --  return n*f(n-1)
  112, 40, 102, 40, 51, 41, 41, 10,                                                -- p(f(3))
  113, 10,                                                                       -- q
  112, 40, 49, 41, 10]                                                           -- p(1)

/-- Names: `f` is 5, `n` is 6, `p` is the builtin 1, others are 7. -/
def id (l : List Ch) : Nat := if l = [102] then 5 else if l = [110] then 6 else if l = [112] then 1 else 7

/-- Numbers of one digit. -/
def num (l : List Ch) : BitVec 32 := intToF ((l.headD 48).toNat - 48 : Int)

/-- The function. -/
def fact : FunDef := ⟨.nil, .seq (.seq (.line 2) (.ifs (.cmp (.name 6) (.cmp .lt) (.num (intToF 2)) .nil) (.seq (.line 2) (.ret (.some (.num (intToF 1))))) .none))
    (.seq (.line 3) (.ret (.some (.binary .times (.name 6) (.call (.name 5) (.cons (.binary .minus (.name 6) (.num (intToF 1))) .nil) .nil)))))⟩

/-- The program. -/
def prog : List Cmd := [.fn 5 [6] fact, .stat (.seq (.line 4) (.expr (.call (.name 1) (.cons (.call (.name 5) (.cons (.num (intToF 3)) .nil) .nil) .nil) .nil))),
  .stat (.seq (.line 5) (.expr (.name 7))), .stat (.seq (.line 6) (.expr (.call (.name 1) (.cons (.num (intToF 1)) .nil) .nil)))]

/-- The text is read as this program. -/
theorem reads : program ⟨false, 255, true⟩ id num (fun _ => 0) 400 source = some prog := by
  have h : tokens ⟨false, 255, true⟩ 400 (Lex.St.init source) [] = some (some [(.kw .def_, 1), (.name [102], 1), (.op, 1), (.name [110], 1), (.cp, 1), (.colon, 1),
     (.nl, 2), (.indent 0, 2), (.kw .if_, 2), (.name [110], 2), (.cmpop (.cmp .lt), 2), (.number [50], 2), (.colon, 2), (.kw .return_, 2), (.number [49], 2), (.nl, 3),
     (.kw .return_, 3), (.name [110], 3), (.mulop .times, 3), (.name [102], 3), (.op, 3), (.name [110], 3), (.minus, 3), (.number [49], 3), (.cp, 3), (.nl, 4),
     (.exdent 0, 4), (.name [112], 4), (.op, 4), (.name [102], 4), (.op, 4), (.number [51], 4), (.cp, 4), (.cp, 4), (.nl, 5), (.name [113], 5), (.nl, 6),
     (.name [112], 6), (.op, 6), (.number [49], 6), (.cp, 6), (.nl, 7), (.eof, 7)]) := by decide +kernel
  rw [program, h]
  show start 400 _ = _
  with_unfolding_all rfl

/-- The function table. -/
def defs (k : Nat) : FunDef := if k = 8 then fact else ⟨.nil, .line 1⟩

/-- The machine: `Snek.Lang.Demo.prim` with this table. -/
def P : Prim Log := Snek.Lang.Demo.prim 256 defs sig

theorem compiled : Compiled P (fun _ => 0) defs where
  width := by decide
  code k := rfl
  small k := by
    by_cases h : k = 8
    · subst h; decide +kernel
    · simp only [defs, h, if_false]; decide +kernel
  wf k := by
    by_cases h : k = 8
    · subst h
      refine ⟨trivial, ?_, by simp [defs, fact], rfl, fun _ => rfl⟩
      simp [defs, fact, WfS, WfE, WfOpt, WfElse, WfChain, WfArgs, WfNamed, P, Snek.Lang.Demo.prim, Exprs.length, Named.length]
      decide +kernel
    · simp only [defs, h, if_false]
      exact ⟨trivial, by simp [WfS, P, Snek.Lang.Demo.prim], by simp, rfl, by simp [TailOk, lastIns]⟩

/-- The lines of the file. -/
def lines : List (Nat × Src) :=
  [(0, ⟨1, [(.kw .def_, 1), (.name [102], 1), (.op, 1), (.name [110], 1), (.cp, 1), (.colon, 1), (.nl, 2)]⟩),
   (1, ⟨2, [(.kw .if_, 2), (.name [110], 2), (.cmpop (.cmp .lt), 2), (.number [50], 2), (.colon, 2), (.kw .return_, 2), (.number [49], 2), (.nl, 3)]⟩),
   (1, ⟨3, [(.kw .return_, 3), (.name [110], 3), (.mulop .times, 3), (.name [102], 3), (.op, 3), (.name [110], 3), (.minus, 3), (.number [49], 3), (.cp, 3), (.nl, 4)]⟩),
   (0, ⟨4, [(.name [112], 4), (.op, 4), (.name [102], 4), (.op, 4), (.number [51], 4), (.cp, 4), (.cp, 4), (.nl, 5)]⟩),
   (0, ⟨5, [(.name [113], 5), (.nl, 6)]⟩),
   (0, ⟨6, [(.name [112], 6), (.op, 6), (.number [49], 6), (.cp, 6), (.nl, 7)]⟩)]

theorem file : File ⟨false, 255, true⟩ 1 lines source 7 := by
  have hdig : ∀ c : Ch, 48 ≤ c → c ≤ 57 → Numeral [c] [] [] := fun c h1 h2 => ⟨⟨c, [], rfl, ⟨h1, h2⟩, by simp⟩, .inl rfl, .inl rfl⟩
  have kwl : ∀ p ∈ keywords, 2 ≤ p.1.length := by decide +kernel
  have nm : ∀ {c d : Ch} {rest}, (97 ≤ c ∧ c ≤ 122) → EndsWord d → Spells ⟨false, 255, true⟩ [c] (.name [c]) (d :: rest) := fun {c d rest} hc hd =>
    .name ⟨c, [], rfl, .inr (.inr (.inr hc)), by simp⟩
      (fun p hp e => absurd (e ▸ kwl p hp) (by simp)) (by intro h; cases h) (by intro h; cases h) (by simp) hd
  have fx : ∀ {w : List Ch} {t : Tok} {c : Ch} {rest}, (w, t) ∈ Spec.Spelling.fixed true → ((Spec.Spelling.fixed true).all fun p => !(w ++ [c]).isPrefixOf p.1) = true →
      Spells ⟨false, 255, true⟩ w t (c :: rest) := fun {w t c rest} h1 h2 => .fixed h1 fun p hp h => by
    have := List.all_eq_true.1 h2 p hp
    rw [List.isPrefixOf_iff_prefix.2 h] at this
    cases this
  have dg : ∀ {c d : Ch} {rest}, 48 ≤ c → c ≤ 57 → ¬ Continues [] [] d → Spells ⟨false, 255, true⟩ [c] (.number [c]) (d :: rest) := fun {c d rest} h1 h2 h3 =>
    have hc : c ≠ 95 := by rintro rfl; revert h2; decide
    by simpa [hc] using Spells.number (C := ⟨false, 255, true⟩) (rest := rest) (hdig c h1 h2) h3 (by simp [hc])
  have t0 : Text ⟨false, 255, true⟩ 0 1 [100, 101, 102, 32, 102, 40, 110, 41, 58, 10] (lines[0]'(by decide)).2.toks 2 :=
    .token (w := [100, 101, 102]) (by decide) (.keyword (by decide +kernel) (by unfold EndsWord; decide)) (
    .space (
    .token (w := [102]) (by decide) (nm (by decide) (by unfold EndsWord; decide)) (
    .token (w := [40]) (by decide) (fx (by decide +kernel) (by decide +kernel)) (
    .token (w := [110]) (by decide) (nm (by decide) (by unfold EndsWord; decide)) (
    .token (w := [41]) (by decide) (fx (by decide +kernel) (by decide +kernel)) (
    .token (w := [58]) (by decide) (fx (by decide +kernel) (by decide +kernel)) (
    .newline 1)))))))
  have t1 : Text ⟨false, 255, true⟩ 0 2 [105, 102, 32, 110, 60, 50, 58, 32, 114, 101, 116, 117, 114, 110, 32, 49, 10] (lines[1]'(by decide)).2.toks 3 :=
    .token (w := [105, 102]) (by decide) (.keyword (by decide +kernel) (by unfold EndsWord; decide)) (
    .space (
    .token (w := [110]) (by decide) (nm (by decide) (by unfold EndsWord; decide)) (
    .token (w := [60]) (by decide) (fx (by decide +kernel) (by decide +kernel)) (
    .token (w := [50]) (by decide) (dg (by decide) (by decide) (by simp [Continues, Digit])) (
    .token (w := [58]) (by decide) (fx (by decide +kernel) (by decide +kernel)) (
    .space (
    .token (w := [114, 101, 116, 117, 114, 110]) (by decide) (.keyword (by decide +kernel) (by unfold EndsWord; decide)) (
    .space (
    .token (w := [49]) (by decide) (dg (by decide) (by decide) (by simp [Continues, Digit])) (
    .newline 2))))))))))
  have t2 : Text ⟨false, 255, true⟩ 0 3 [114, 101, 116, 117, 114, 110, 32, 110, 42, 102, 40, 110, 45, 49, 41, 10] (lines[2]'(by decide)).2.toks 4 :=
    .token (w := [114, 101, 116, 117, 114, 110]) (by decide) (.keyword (by decide +kernel) (by unfold EndsWord; decide)) (
    .space (
    .token (w := [110]) (by decide) (nm (by decide) (by unfold EndsWord; decide)) (
    .token (w := [42]) (by decide) (fx (by decide +kernel) (by decide +kernel)) (
    .token (w := [102]) (by decide) (nm (by decide) (by unfold EndsWord; decide)) (
    .token (w := [40]) (by decide) (fx (by decide +kernel) (by decide +kernel)) (
    .token (w := [110]) (by decide) (nm (by decide) (by unfold EndsWord; decide)) (
    .token (w := [45]) (by decide) (fx (by decide +kernel) (by decide +kernel)) (
    .token (w := [49]) (by decide) (dg (by decide) (by decide) (by simp [Continues, Digit])) (
    .token (w := [41]) (by decide) (fx (by decide +kernel) (by decide +kernel)) (
    .newline 3))))))))))
  have t3 : Text ⟨false, 255, true⟩ 0 4 [112, 40, 102, 40, 51, 41, 41, 10] (lines[3]'(by decide)).2.toks 5 :=
    .token (w := [112]) (by decide) (nm (by decide) (by unfold EndsWord; decide)) (
    .token (w := [40]) (by decide) (fx (by decide +kernel) (by decide +kernel)) (
    .token (w := [102]) (by decide) (nm (by decide) (by unfold EndsWord; decide)) (
    .token (w := [40]) (by decide) (fx (by decide +kernel) (by decide +kernel)) (
    .token (w := [51]) (by decide) (dg (by decide) (by decide) (by simp [Continues, Digit])) (
    .token (w := [41]) (by decide) (fx (by decide +kernel) (by decide +kernel)) (
    .token (w := [41]) (by decide) (fx (by decide +kernel) (by decide +kernel)) (
    .newline 4)))))))
  have t4 : Text ⟨false, 255, true⟩ 0 5 [113, 10] (lines[4]'(by decide)).2.toks 6 :=
    .token (w := [113]) (by decide) (nm (by decide) (by unfold EndsWord; decide)) (
    .newline 5)
  have t5 : Text ⟨false, 255, true⟩ 0 6 [112, 40, 49, 41, 10] (lines[5]'(by decide)).2.toks 7 :=
    .token (w := [112]) (by decide) (nm (by decide) (by unfold EndsWord; decide)) (
    .token (w := [40]) (by decide) (fx (by decide +kernel) (by decide +kernel)) (
    .token (w := [49]) (by decide) (dg (by decide) (by decide) (by simp [Continues, Digit])) (
    .token (w := [41]) (by decide) (fx (by decide +kernel) (by decide +kernel)) (
    .newline 6))))
  have e : source = [] ++ (List.replicate 0 32 ++ (100 :: [101, 102, 32, 102, 40, 110, 41, 58, 10] ++ ([] ++ (List.replicate 1 32 ++ (105 :: [102, 32, 110, 60, 50, 58, 32, 114, 101, 116, 117, 114, 110, 32, 49, 10] ++ ([] ++ (List.replicate 1 32 ++ (114 :: [101, 116, 117, 114, 110, 32, 110, 42, 102, 40, 110, 45, 49, 41, 10] ++ ([] ++ (List.replicate 0 32 ++ (112 :: [40, 102, 40, 51, 41, 41, 10] ++ ([] ++ (List.replicate 0 32 ++ (113 :: [10] ++ ([] ++ (List.replicate 0 32 ++ (112 :: [40, 49, 41, 10] ++ ([])))))))))))))))))) := rfl
  rw [e]
  exact .cons (n' := 2) (c := 100) .nil (by decide) (by decide) (by decide) t0 (.cons (n' := 3) (c := 105) .nil (by decide) (by decide) (by decide) t1 (.cons (n' := 4) (c := 114) .nil (by decide) (by decide) (by decide) t2 (.cons (n' := 5) (c := 112) .nil (by decide) (by decide) (by decide) t3 (.cons (n' := 6) (c := 113) .nil (by decide) (by decide) (by decide) t4 (.cons (n' := 7) (c := 112) .nil (by decide) (by decide) (by decide) t5 (.nil .nil))))))

/-- Globals once `f` is defined. -/
def globals1 : List (Var Val) := [⟨fn 8, 5⟩]

/-- What the program does: the factorial is printed, and the error ends it. -/
theorem means : Program P defs (fun _ => fn 8) 0 prog [] [] globals1 [.num (intToF 6)] true := by
  refine .define (g1 := globals1) (w1 := []) (by decide +kernel) rfl (by rfl) (by rfl) ?_
  refine .finishes (k := 40) (t := ⟨⟨globals1, []⟩, [.num (intToF 6)]⟩) (by with_unfolding_all rfl) ?_
  exact .fails (k := 5) (by with_unfolding_all rfl)

example : ∃ s' : Sess Log Unit, Load P (fun _ => 0) () (fun _ => fn 8) ⟨false, 255, true⟩ id num (fun _ => 0) source (boot [] []) s' ∧
    s'.w = [.num (intToF 6)] ∧ shown s'.out = [none] := by
  obtain ⟨is, hb, hp⟩ := C61_only ⟨false, 255, true⟩ rfl (by decide) id num (fun _ => 0) lines source 7 file (by decide) (by decide) 400 prog reads
  have wf : ∀ c, Cmd.stat c ∈ prog → StatOk P.W (fun _ => 0) c := by
    intro c hc
    simp only [prog, List.mem_cons, List.not_mem_nil, or_false, reduceCtorEq, false_or, Cmd.stat.injEq] at hc
    rcases hc with rfl | rfl | rfl <;> refine ⟨?_, by decide +kernel⟩ <;>
      simp [WfS, WfE, WfArgs, WfNamed, P, Snek.Lang.Demo.prim, Exprs.length, Named.length] <;> decide +kernel
  obtain ⟨⟨s', h⟩, h'⟩ := C69_file_partial (oom := ()) compiled ⟨false, 255, true⟩ rfl (by decide) id num (fun _ => 0) lines source 7 file (by decide) (by decide)
    hb hp wf (s := boot [] []) ⟨rfl, rfl, rfl⟩ means
  exact ⟨s', h, (h' s' h).2.1, (h' s' h).2.2⟩

end Demo

end Snek.Session
