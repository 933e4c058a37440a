import Verif.Spec.Posix
import Verif.Proofs.LexEnd
/-!
# C99: the interpreter on a computer reads what is typed and reports how the run went
-/
namespace Snek.Posix
open Snek.Lex (Ch)

/-- What is still to come. -/
def rest (s : St) : List (Option Ch) := (match s.line with | some l => chars (some l) | none => []) ++ typed s.ahead

theorem takeChar_rest (l : List Ch) (s : St) : (takeChar l s).1 = first (chars (some l) ++ typed s.ahead) ∧
    rest (takeChar l s).2 = (chars (some l) ++ typed s.ahead).tail := by
  cases l with
  | nil => exact ⟨rfl, rfl⟩
  | cons c l => exact ⟨rfl, rfl⟩

theorem getcInteractive_rest (m : Bool) (s : St) : (getcInteractive m s).1 = first (rest s) ∧ rest (getcInteractive m s).2 = (rest s).tail ∧
    (getcInteractive m s).2.abort = s.abort ∧ (getcInteractive m s).2.sigint = s.sigint := by
  have ht : ∀ l s, (takeChar l s).2.abort = s.abort ∧ (takeChar l s).2.sigint = s.sigint := by
    intro l s; cases l <;> exact ⟨rfl, rfl⟩
  unfold getcInteractive
  cases hl : s.line with
  | some l =>
    have h := takeChar_rest l s
    have e : rest s = chars (some l) ++ typed s.ahead := by simp only [rest, hl]
    rw [e]
    exact ⟨h.1, h.2, ht l s⟩
  | none =>
    have e : rest s = typed s.ahead := by simp only [rest, hl, List.nil_append]
    rw [e]
    simp only []
    cases ha : s.ahead with
    | nil => exact ⟨rfl, by simp [rest, hl, ha, typed], rfl, rfl⟩
    | cons a r =>
      cases a with
      | none => exact ⟨rfl, by simp [rest, hl, typed, chars], rfl, rfl⟩
      | some l =>
        have h := takeChar_rest l { s with asked := s.asked ++ [m], ahead := r }
        exact ⟨h.1, h.2, ht l _⟩

/-- What holds between events: `b`: interrupted; `f`: the parser started again and no character was read yet. -/
def Inv (f b : Bool) (s : St) : Prop :=
  (b = true → s.abort = true ∧ s.sigint = true) ∧ (b = false → s.sigint = false ∨ (f = true ∧ s.abort = false))

theorem run_expect (es : List Ev) : ∀ (f b : Bool) (s : St), Inv f b s → Orderly f es → (run s es).1 = expect b (rest s) es := by
  induction es with
  | nil => intro f b s _ _; cases b <;> rfl
  | cons e es ih =>
    intro f b s hi ho
    cases e with
    | getc m w =>
      simp only [Orderly] at ho
      cases b with
      | true =>
        obtain ⟨h1, h2⟩ := hi.1 rfl
        have hg : ∃ s', getc m w s = (none, s') ∧ rest s' = rest s ∧ s'.abort = true ∧ s'.sigint = true := by
          rcases ho.1 with rfl | rfl
          · exact ⟨s, by simp [getc, St.at, h1, h2], rfl, h1, h2⟩
          · exact ⟨handler s, by simp [getc, St.at, h1, handler], rfl, rfl, rfl⟩
        obtain ⟨s', e, hr, h3, h4⟩ := hg
        simp only [run, step, e, expect]
        rw [ih false true s' ⟨fun _ => ⟨h3, h4⟩, (fun h => by cases h)⟩ ho.2, hr]
      | false =>
        rcases ho.1 with rfl | rfl
        · have hs : (if !s.abort then { s with sigint := false } else s).sigint = false := by
            rcases hi.2 rfl with h | ⟨-, h⟩
            · split <;> simp [h]
            · simp [h]
          generalize hs1 : (if !s.abort then { s with sigint := false } else s) = s1 at hs
          have hr1 : rest s1 = rest s := by rw [← hs1]; split <;> rfl
          obtain ⟨g1, g2, g3, g4⟩ := getcInteractive_rest m s1
          have e : getc m .never s = (first (rest s), (getcInteractive m s1).2) := by
            simp only [getc, St.at, reduceCtorEq, decide_false, Bool.false_eq_true, if_false, hs1, hs, Bool.not_false, if_true, g4, g1, hr1]
          simp only [run, step, e, expect, reduceCtorEq, if_false]
          rw [ih false false _ ⟨(fun h => by cases h), fun _ => .inl (by rw [g4, hs])⟩ ho.2, g2, hr1]
        · have e : ∃ s', getc m .cleared s = (none, s') ∧ rest s' = rest s ∧ s'.abort = true ∧ s'.sigint = true := by
            refine ⟨handler (if !s.abort then { s with sigint := false } else s), ?_, ?_, rfl, rfl⟩
            · simp [getc, St.at, handler]
            · split <;> rfl
          obtain ⟨s', e, hr, h3, h4⟩ := e
          simp only [run, step, e, expect, if_true]
          rw [ih false true s' ⟨fun _ => ⟨h3, h4⟩, (fun h => by cases h)⟩ ho.2, hr]
    | sigint =>
      simp only [run, step, Orderly] at ho ⊢
      rw [ih f true (handler s) ⟨fun _ => ⟨rfl, rfl⟩, fun h => by cases h⟩ ho]
      cases b <;> rfl
    | error =>
      simp only [run, step, Orderly] at ho ⊢
      rw [ih f b { s with abort := true } ⟨fun h => ⟨rfl, (hi.1 h).2⟩, fun h => .inl ?_⟩ ho.2]
      · cases b <;> rfl
      · rcases hi.2 h with h | ⟨h, -⟩
        · exact h
        · rw [ho.1] at h; cases h
    | reset =>
      simp only [run, step, Orderly] at ho ⊢
      rw [ih true false { s with abort := false } ⟨fun h => (by cases h), fun _ => .inr ⟨rfl, rfl⟩⟩ ho]
      cases b <;> rfl

/-- What is read is what is typed, character by character, each line ended by one newline, whatever errors are raised in between and whenever
the parser starts again. After ^C (not typed while waiting for a character) the reader gives the end of input until the parser starts again,
and loses nothing. -/
theorem C99_typed (answers : List (Option (List Ch))) (es : List Ev) (h : Orderly false es) :
    (run (St.init answers) es).1 = expect false (typed answers) es := by
  rw [run_expect es false false (St.init answers) ⟨fun h => (by cases h), fun _ => .inl rfl⟩ h]
  rfl

/-! ## Prompts -/

/-- No ^C. -/
def Calm : List Ev → Prop
  | [] => True
  | .getc _ w :: es => w = .never ∧ Calm es
  | .sigint :: _ => False
  | _ :: es => Calm es

/-- Where in a command the characters were asked for. -/
def middles : List Ev → List Bool
  | [] => []
  | .getc m _ :: es => m :: middles es
  | _ :: es => middles es

theorem run_prompts (es : List Ev) : ∀ (s : St), s.sigint = false → (∀ l, some l ∈ s.ahead → 10 ∉ l) → (∀ l, s.line = some l → 10 ∉ l) → Calm es →
    (run s es).2.asked = s.asked ++ prompts s.line.isNone ((middles es).zip (run s es).1) := by
  induction es with
  | nil => intro s _ _ _ _; simp [run, middles, prompts]
  | cons e es ih =>
    intro s hs ha hl hc
    cases e with
    | getc m w =>
      simp only [Calm] at hc
      obtain ⟨rfl, hc⟩ := hc
      have he : getc m .never s = getcInteractive m s := by
        have : (getcInteractive m s).2.sigint = false := by rw [(getcInteractive_rest m s).2.2.2, hs]
        have h2 : (if !s.abort then { s with sigint := false } else s) = s := by
          split
          · cases s; simp_all
          · rfl
        simp only [getc, St.at, reduceCtorEq, decide_false, Bool.false_eq_true, if_false, h2, hs, Bool.not_false, if_true, this]
      have hk : (getcInteractive m s).2.sigint = false ∧ (∀ l, some l ∈ (getcInteractive m s).2.ahead → 10 ∉ l) ∧
          (∀ l, (getcInteractive m s).2.line = some l → 10 ∉ l) ∧
          (getcInteractive m s).2.asked = s.asked ++ (if s.line.isNone then [m] else []) ∧
          ((getcInteractive m s).2.line.isNone = decide ((getcInteractive m s).1 = none ∨ (getcInteractive m s).1 = some 10)) := by
        have ht : ∀ (l : List Ch) (s : St), 10 ∉ l → s.sigint = false → (takeChar l s).2.sigint = false ∧ (takeChar l s).2.ahead = s.ahead ∧
            (∀ l', (takeChar l s).2.line = some l' → 10 ∉ l') ∧ (takeChar l s).2.asked = s.asked ∧
            ((takeChar l s).2.line.isNone = decide ((takeChar l s).1 = none ∨ (takeChar l s).1 = some 10)) := by
          intro l s hn hs
          cases l with
          | nil => exact ⟨hs, rfl, fun l' h => (by cases h), rfl, rfl⟩
          | cons c l =>
            simp only [List.mem_cons, not_or] at hn
            refine ⟨hs, rfl, fun l' h => (by cases h; exact hn.2), rfl, ?_⟩
            simp only [takeChar, Option.isNone_some, reduceCtorEq, Option.some.injEq, false_or]
            exact (decide_eq_false (fun h => hn.1 h.symm)).symm
        unfold getcInteractive
        rcases Option.eq_none_or_eq_some s.line with hn | ⟨l, hn⟩
        · simp only [hn, Option.isNone_none, if_true]
          cases hh : s.ahead with
          | nil => exact ⟨hs, by simp [hh], fun l h => (by simp [hn] at h), rfl, by simp [hn]⟩
          | cons a r =>
            rw [hh] at ha
            cases a with
            | none => exact ⟨hs, fun l h => ha l (List.mem_cons_of_mem _ h), fun l h => (by simp [hn] at h), rfl, by simp [hn]⟩
            | some l =>
              obtain ⟨t1, t2, t3, t4, t5⟩ := ht l { s with asked := s.asked ++ [m], ahead := r } (ha l (List.mem_cons_self ..)) hs
              exact ⟨t1, fun l' h => ha l' (List.mem_cons_of_mem _ (by have h' : some l' ∈ (takeChar l { s with asked := s.asked ++ [m], ahead := r }).2.ahead := h; rw [t2] at h'; exact h')), t3, t4, t5⟩
        · simp only [hn, Option.isNone_some, Bool.false_eq_true, if_false, List.append_nil]
          obtain ⟨t1, t2, t3, t4, t5⟩ := ht l s (hl l hn) hs
          exact ⟨t1, fun l' h => ha l' (by rw [t2] at h; exact h), t3, t4, t5⟩
      obtain ⟨k1, k2, k3, k4, k5⟩ := hk
      simp only [run, step, he, middles, List.zip_cons_cons, prompts]
      rw [ih _ k1 k2 k3 hc, k4, k5, List.append_assoc]
    | sigint => exact absurd hc (by simp [Calm])
    | error => simp only [run, step, middles]; exact ih { s with abort := true } hs ha hl hc
    | reset => simp only [run, step, middles]; exact ih { s with abort := false } hs ha hl hc

/-- There is one prompt before each line (and each end of input): "+ " when the parser is in the middle of a command, "> " otherwise. -/
theorem C99_prompts (answers : List (Option (List Ch))) (ha : ∀ l, some l ∈ answers → 10 ∉ l) (es : List Ev) (h : Calm es) :
    (run (St.init answers) es).2.asked = prompts true ((middles es).zip (run (St.init answers) es).1) := by
  rw [run_prompts es (St.init answers) rfl ha (fun l h => by cases h) h]
  rfl

/-! ## Sessions, files, exit status -/

/-- An error in a command, lack of memory and a syntax error do not end a session, unless the input ends. It ends with success except when the
input ends in the middle of a command. -/
theorem C99_session_end (l : List Outcome) (b : Bool) (h : parseLoop true l = some b) :
    ∃ before last after, l = before ++ last :: after ∧ (∀ x ∈ before, x = .error ∨ x = .oom false ∨ x = .syntax false) ∧
      ((last ∈ [.success, .oom true, .syntax true] ∧ b = true) ∨ (last = .end_ ∧ b = false)) := by
  induction l with
  | nil => cases h
  | cons x l ih =>
    have go : (x = .error ∨ x = .oom false ∨ x = .syntax false) → parseLoop true l = some b → ∃ before last after, x :: l = before ++ last :: after ∧
        (∀ y ∈ before, y = .error ∨ y = .oom false ∨ y = .syntax false) ∧
        ((last ∈ [.success, .oom true, .syntax true] ∧ b = true) ∨ (last = .end_ ∧ b = false)) := by
      intro hx h
      obtain ⟨p, q, r, e, h1, h2⟩ := ih h
      refine ⟨x :: p, q, r, by rw [e]; rfl, fun y hy => ?_, h2⟩
      rcases List.mem_cons.1 hy with rfl | hy
      · exact hx
      · exact h1 y hy
    cases x with
    | success => cases h; exact ⟨[], _, l, rfl, by simp, .inl ⟨by simp, rfl⟩⟩
    | end_ => cases h; exact ⟨[], _, l, rfl, by simp, .inr ⟨rfl, rfl⟩⟩
    | error => exact go (.inl rfl) h
    | oom e =>
      cases e with
      | true => cases h; exact ⟨[], _, l, rfl, by simp, .inl ⟨by simp, rfl⟩⟩
      | false => exact go (.inr (.inl rfl)) h
    | «syntax» e =>
      cases e with
      | true => cases h; exact ⟨[], _, l, rfl, by simp, .inl ⟨by simp, rfl⟩⟩
      | false => exact go (.inr (.inr rfl)) h

/-- A file is run up to its first error; only a file without any succeeds. -/
theorem C99_file (x : Outcome) (l : List Outcome) : parseLoop false (x :: l) = some (decide (x = .success)) := by
  cases x <;> simp [parseLoop]

/-- Without `--version` and `--help`: there is a session if no file is given or `-i` is; the status is 0 exactly if all that was run succeeded; a file
that cannot be opened gives 1 and nothing is run. -/
theorem C99_status (opts : List Opt) (ho : ∀ o ∈ opts, o = .interactive) (file : Option Bool) (fileOk sessionOk : Bool) :
    (file = some false → main opts file fileOk sessionOk = ⟨1, false, false⟩) ∧
    (file ≠ some false → ((main opts file fileOk sessionOk).ran = true ↔ file = some true) ∧
      ((main opts file fileOk sessionOk).session = true ↔ file = none ∨ opts ≠ []) ∧
      ((main opts file fileOk sessionOk).status = 0 ↔
        (file = some true → fileOk = true) ∧ ((main opts file fileOk sessionOk).session = true → sessionOk = true)) ∧
      (main opts file fileOk sessionOk).status ≤ 1) := by
  have hopt : ∀ f, options f opts = some (f || decide (opts ≠ [])) := by
    induction opts with
    | nil => intro f; simp [options]
    | cons o l ih =>
      intro f
      cases ho o (List.mem_cons_self ..)
      simp [options, ih (fun o h => ho o (List.mem_cons_of_mem _ h)) true]
  have h0 := hopt false
  simp only [Bool.false_or] at h0
  unfold main
  rw [h0]
  rcases file with _ | _ | _ <;> cases fileOk <;> cases sessionOk <;> by_cases hn : opts = [] <;> simp [hn]

/-- `--version` and `--help` run nothing. -/
theorem C99_help (pre : List Opt) (hp : ∀ o ∈ pre, o = .interactive) (o : Opt) (ho : o = .version ∨ o = .help) (l : List Opt) (file : Option Bool) (a b : Bool) :
    main (pre ++ o :: l) file a b = ⟨0, false, false⟩ := by
  have : ∀ f, options f (pre ++ o :: l) = none := by
    induction pre with
    | nil => intro f; rcases ho with rfl | rfl <;> rfl
    | cons x p ih =>
      intro f
      cases hp x (List.mem_cons_self ..)
      exact ih (fun o h => hp o (List.mem_cons_of_mem _ h)) true
  unfold main
  rw [this]

/-! ## From the file to the session -/

open Snek.Lex in
/-- After the end of a line nothing of the text is left in the lexer's push-back buffer. -/
theorem C99_clean_line {C : Lex.Cfg} {text : List Ch} {s s' : Lex.St} {k : Nat} (hr : Reach C text s) (h : lex C k s = some (.nl, s')) : s'.back = 0 :=
  lex_nl_back C (NlLast.reach hr) h

open Snek.Lex in
/-- Only tokens for the layout follow; the parser takes over the new indentation. -/
inductive AfterLine (C : Lex.Cfg) : Lex.St → Lex.St → Prop
  | refl (s) : AfterLine C s s
  | step {s s1 s2 : Lex.St} {k n : Nat} {t : Tok} (cur : Nat) (h : AfterLine C s s1) (hl : lex C k s1 = some (t, s2)) (ht : t = .indent n ∨ t = .exdent n) :
      AfterLine C s { s2 with cur := cur }

open Snek.Lex in
/-- When the text ends after the end of a line (and tokens for its layout), nothing is left either: a session after it starts with what is
typed. -/
theorem C99_clean_end {C : Lex.Cfg} {text : List Ch} {s s1 s2 s' : Lex.St} {k k' : Nat} (hr : Reach C text s) (h : lex C k s = some (.nl, s1))
    (ha : AfterLine C s1 s2) (he : lex C k' s2 = some (.eof, s')) : s'.back = 0 := by
  have hb := C99_clean_line hr h
  have h0 : One s1.core := ⟨by show s1.back ≤ 1; omega, by show s1.back ≤ s1.pend.length; omega⟩
  have h2 : One s2.core := by
    clear he h hb
    induction ha with
    | refl => exact h0
    | step cur _ hl ht ih => exact (lex_end_back C ih hl).2 ⟨_, ht⟩
  exact (lex_end_back C h2 he).1 rfl

/-! ## Violations -/

/-- ^C typed while the interpreter waits at a prompt: when the line is entered its first character is lost and the reader gives the end of input, which
ends the session. -/
theorem C99_violated_interrupt_at_prompt (m : Bool) (c : Ch) (l : List Ch) (answers : List (Option (List Ch))) :
    ∃ s, getc m .reading (St.init (some (c :: l) :: answers)) = (none, s) ∧ rest s = l.map some ++ [some 10] ++ typed answers :=
  ⟨_, rfl, rfl⟩

/-- ^C just between the test and clearing the flag is not seen by the reader. -/
theorem C99_violated_race (m : Bool) (c : Ch) (l : List Ch) (answers : List (Option (List Ch))) :
    ∃ s, getc m .testing (St.init (some (c :: l) :: answers)) = (some c, s) ∧ s.sigint = false ∧ s.abort = true := ⟨_, rfl, rfl, rfl⟩

/-- Built without `readline`, lines are read with `fgets`, which keeps the newline: each line is followed by an empty one. -/
theorem C99_violated_fgets (l : List Ch) (answers : List (Option (List Ch))) :
    typed (some (l ++ [10]) :: answers) = l.map some ++ [some 10, some 10] ++ typed answers := by
  simp [typed, chars]

open Snek.Lex in
/-- After a syntax error in the file what the lexer pushed back is still there: with `-i` it is read in front of the first line typed. Here the
file is `x=<y`; the `y` is left. -/
theorem C99_violated_leftover : ∃ s1 s2 s3 : Lex.St, lex ⟨false, 100, true⟩ 9 (Lex.St.init [120, 61, 60, 121, 10]) = some (.name [120], s1) ∧
    lex ⟨false, 100, true⟩ 9 s1 = some (.assign .plain, s2) ∧ lex ⟨false, 100, true⟩ 9 s2 = some (.cmpop (.cmp .lt), s3) ∧
    s3.back = 1 ∧ s3.pend.take s3.back = [121] := by
  refine ⟨_, _, _, rfl, rfl, rfl, ?_⟩
  decide +kernel

/-- An option that is not known is reported by `getopt_long` like `--help`: the status is 0. -/
theorem C99_violated_option (file : Option Bool) (a b : Bool) : (main [.help] file a b).status = 0 := rfl

/-! ## Concrete cases -/

/-- Typing `ab`, ^C while it runs, then `c`. -/
def demo : List Ev := [.getc false .never, .getc true .never, .getc true .never, .sigint, .getc true .never, .reset, .getc false .never, .getc false .never, .error,
  .getc false .never, .reset, .getc false .cleared]

example : Orderly false demo := by simp [demo, Orderly]
example : (run (St.init [some [97, 98], some [99], none]) demo).1 = [some 97, some 98, some 10, none, some 99, some 10, none, none] := by decide +kernel
example : expect false (typed [some [97, 98], some [99], none]) demo = [some 97, some 98, some 10, none, some 99, some 10, none, none] := by decide +kernel

/-- A definition on two lines. -/
def demo2 : List Ev := [.getc false .never, .getc true .never, .getc true .never, .getc true .never, .error, .reset, .getc false .never]

example : Calm demo2 := by simp [demo2, Calm]
example : (run (St.init [some [97], some [98]]) demo2).2.asked = [false, true, false] := by decide +kernel
example : parseLoop true [.error, .syntax false, .success] = some true := by decide +kernel
example : main [.interactive] (some true) false true = ⟨1, true, true⟩ := by decide +kernel

open Snek.Lex in
/-- `a` and a newline: the end of the line, then the end of the text. -/
example : ∃ s1 s2 s3 : Lex.St, lex ⟨false, 100, true⟩ 9 (Lex.St.init [97, 10]) = some (.name [97], s1) ∧ lex ⟨false, 100, true⟩ 9 s1 = some (.nl, s2) ∧
    lex ⟨false, 100, true⟩ 9 s2 = some (.eof, s3) ∧ s3.back = 0 := by
  refine ⟨_, _, _, rfl, rfl, rfl, ?_⟩
  decide +kernel

end Snek.Posix
