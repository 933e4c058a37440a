import Verif.Model.Vm
/-!
# A session

What survives from command to command: the registers of the machine, `snek_abort`, and what has been printed. Models `snek_error_name`
(snek-error.c:37-78), entry and exit of `snek_exec` (snek-exec.c:717-727, 1035-1044), the action of `command` (snek-gram.ll:17-30), the
storing of a function by `def` (snek-gram.ll:38-53), the `lex` macro (snek-parse.c:153-161) and the loop of `snek_parse`
(snek-parse.c:221-291), on an interactive device. The parser itself is elsewhere (`ParseStmt`, `Compile`); here its outcome is an input.
The texts of messages are of any type `μ`.
-/
namespace Snek.Session
open Store (Val)
open Snek.Vm

/-- A line of output. -/
inductive Item (μ : Type)
  | value (v : Val)
  | error (m : μ)

/-- The static variables: the value stack up to `snek_stackp` (top first), `snek_a`, `snek_frame`, `snek_abort`, `snek_globals`,
`snek_line`, and the rest; and the output so far. -/
structure Sess (σ μ : Type) where
  stack : List Val
  acc : Val
  frames : List (Frame Val (List UInt8))
  abort : Bool
  globals : List (Var Val)
  line : Nat
  w : σ
  out : List (Item μ)

variable {σ μ : Type}

/-- At start-up: snek-exec.c:17-27. -/
def boot (globals : List (Var Val)) (w : σ) : Sess σ μ := ⟨[], Val.none, [], false, globals, 0, w, []⟩

/-- `snek_error_name`, snek-error.c:37-78. -/
def snekError (m : μ) (s : Sess σ μ) : Sess σ μ :=
  if s.abort then s else { s with abort := true, out := s.out ++ [.error m] }

/-- Several errors. -/
def snekErrors (ms : List μ) (s : Sess σ μ) : Sess σ μ := ms.foldl (fun s m => snekError m s) s

/-- `snek_exec` at its start, snek-exec.c:717-727. -/
def enter (code : List UInt8) (s : Sess σ μ) : Vm σ := ⟨code, 0, s.acc, s.stack, ⟨s.globals, s.frames⟩, s.line, s.w, s.abort⟩

/-- `snek_exec` at its end, snek-exec.c:1035-1044. The cells of the stack below `saved_stackp` are those of the start: a run that pops them
is a fault of the machine. -/
def leave (e : End σ) (s : Sess σ μ) : Sess σ μ :=
  { s with acc := Val.none, frames := [], globals := e.globals, line := e.line, w := e.w }

/-- Steps of the machine, at any point of which ^C may be typed (if `intr`): it sets `snek_abort`. -/
inductive Runs (P : Prim σ) (intr : Bool) : Vm σ → Vm σ → Prop
  | refl (s) : Runs P intr s s
  | step {s t u} (h : step P s = .run t) (r : Runs P intr t u) : Runs P intr s u
  | key {s u} (h : intr = true) (r : Runs P intr { s with pend := true } u) : Runs P intr s u

/-- `snek_exec(code)`: the value it returns and the state it leaves. When it stops early, `ms` are the errors that were raised
(an interrupted run may have raised none). -/
inductive Exec (P : Prim σ) (intr : Bool) (code : List UInt8) (s : Sess σ μ) : Val → Sess σ μ → Prop
  | done {vm v e} (r : Runs P intr (enter code s) vm) (h : step P vm = .done v e) : Exec P intr code s v (leave e s)
  | abort {vm v e} (ms : List μ) (hm : intr = false → ms ≠ []) (r : Runs P intr (enter code s) vm) (h : step P vm = .abort e) :
      Exec P intr code s v { snekErrors ms (leave e s) with abort := true }

/-- `snek_id_store` outside of functions; `oom` is the message if there is no memory. -/
def store (P : Prim σ) (oom : μ) (x : Nat) (v : Val) (s : Sess σ μ) : Sess σ μ :=
  match storeId P (⟨s.globals, s.frames⟩ : Frames Val (List UInt8)) s.w x v with
  | (true, fr, w) => { s with globals := fr.globals, frames := fr.frames, w := w }
  | (false, fr, w) => snekError oom { s with globals := fr.globals, frames := fr.frames, w := w }

/-- Showing the value, snek-gram.ll:25-29; `under` is SNEK_BUILTIN__. -/
def echo (P : Prim σ) (oom : μ) (under : Nat) (v : Val) (s : Sess σ μ) : Sess σ μ :=
  let s := store P oom under v s
  { s with out := s.out ++ [.value v] }

/-- Before `parse` is called (again): snek-parse.c:223-240. -/
def reset (s : Sess σ μ) : Sess σ μ := { s with abort := false }

/-- What comes from the parser: a statement, with `snek_print_val`; a function definition; a text that is not a command. -/
inductive Input (μ : Type)
  | cmd (shows : Bool) (code : List UInt8)
  | define (x : Nat) (v : Val)
  | syntaxError (m : μ)

/-- One round: a command, or the recovery from a bad one. -/
inductive Round (P : Prim σ) (intr : Bool) (oom : μ) (under : Nat) : Input μ → Sess σ μ → Sess σ μ → Prop
  /-- The command ends, its value is shown. -/
  | ok {shows code s v s'} (h : Exec P intr code s v s') (ha : s'.abort = false) :
      Round P intr oom under (.cmd shows code) s (if shows = true ∧ v ≠ Val.none then echo P oom under v s' else s')
  /-- It is stopped: `parse` returns and is called again. -/
  | stopped {shows code s v s'} (h : Exec P intr code s v s') (ha : s'.abort = true) : Round P intr oom under (.cmd shows code) s (reset s')
  | define {x v s} : Round P intr oom under (.define x v) s (store P oom x v s)
  | syntaxError {m s} : Round P intr oom under (.syntaxError m) s (reset (snekError m s))
  /-- `snek_abort` was set before this input: after its first token `parse` returns; what is left of the input is read as the next. -/
  | lost {i s} (ha : s.abort = true) : Round P intr oom under i s (reset s)

/-- A history. -/
inductive Hist (P : Prim σ) (intr : Bool) (oom : μ) (under : Nat) : List (Input μ) → Sess σ μ → Sess σ μ → Prop
  | nil (s) : Hist P intr oom under [] s s
  | cons {i l s t u} (h : Round P intr oom under i s t) (r : Hist P intr oom under l t u) : Hist P intr oom under (i :: l) s u

end Snek.Session
