import Verif.Model.Lex
/-!
# The interpreter on a computer

Models `ports/posix/snek-main.c` (reading lines typed at a prompt, ^C, options, exit status) and the loop of `snek_parse` (snek-parse.c:221-291)
over the outcomes of `parse`. Not modelled: the texts of messages, `readline` itself
(its answers are an input; history and editing keys are its own), `getopt_long` (the options it reports are an input).
-/
namespace Snek.Posix
open Snek.Lex (Ch)

/-- `line` of `snek_getc_interactive` (none: null), the answers of `readline` to come (none: it returned null; after the last one it returns
null), the prompts given so far (`true`: "+ "), `snek_abort`, `snek_sigint`. -/
structure St where
  line : Option (List Ch)
  ahead : List (Option (List Ch))
  asked : List Bool
  abort : Bool
  sigint : Bool
  deriving DecidableEq, Repr

/-- At start: the static variables are zero. -/
def St.init (ahead : List (Option (List Ch))) : St := ⟨none, ahead, [], false, false⟩

/-- Taking a character from the line, ports/posix/snek-main.c:73-79. -/
def takeChar (l : List Ch) (s : St) : Option Ch × St :=
  match l with
  | [] => (some 10, { s with line := none })
  | c :: l => (some c, { s with line := some l })

/-- `snek_getc_interactive`, ports/posix/snek-main.c:56-80; `middle` is `snek_parse_middle`. -/
def getcInteractive (middle : Bool) (s : St) : Option Ch × St :=
  match s.line with
  | some l => takeChar l s
  | none =>
    let s := { s with asked := s.asked ++ [middle] }
    match s.ahead with
    | some l :: rest => takeChar l { s with ahead := rest }
    | none :: rest => (none, { s with ahead := rest })
    | [] => (none, s)

/-- When ^C arrives in a call of `snek_getc`: not at all; between the test of `snek_abort` and clearing `snek_sigint` (line 88-89); after that;
while the character is read. -/
inductive When | never | testing | cleared | reading
  deriving DecidableEq, Repr

/-- `sigint`, ports/posix/snek-main.c:101-108. -/
def handler (s : St) : St := { s with abort := true, sigint := true }

/-- ^C arrives at this place or not. -/
def St.at (s : St) (here : Bool) : St := if here then handler s else s

/-- `snek_getc`, ports/posix/snek-main.c:84-99, in a session. -/
def getc (middle : Bool) (when_ : When) (s : St) : Option Ch × St :=
  let clear := !s.abort
  let s := s.at (when_ = .testing)
  let s := if clear then { s with sigint := false } else s
  let s := s.at (when_ = .cleared)
  let r := if !s.sigint then getcInteractive middle s else (none, s)
  let s := r.2.at (when_ = .reading)
  (if s.sigint then none else r.1, s)

/-- What happens in a session, as far as reading is concerned: a character is read; ^C arrives elsewhere; an error is raised
(snek-error.c:47); the parser starts again (snek-parse.c:240). -/
inductive Ev | getc (middle : Bool) (when_ : When) | sigint | error | reset
  deriving DecidableEq, Repr

/-- One of them, with what `snek_getc` returns. -/
def step (s : St) : Ev → Option (Option Ch) × St
  | .getc m w => let r := getc m w s; (some r.1, r.2)
  | .sigint => (none, handler s)
  | .error => (none, { s with abort := true })
  | .reset => (none, { s with abort := false })

/-- A history: what the calls of `snek_getc` return, in order. -/
def run : St → List Ev → List (Option Ch) × St
  | s, [] => ([], s)
  | s, e :: es =>
    let r := step s e
    let q := run r.2 es
    (match r.1 with | some c => c :: q.1 | none => q.1, q.2)

/-- What `parse` returns; after a syntax error or lack of memory in a session input is skipped up to a line without indentation, or up to the
end (`toEnd`), snek-parse.c:263-287. -/
inductive Outcome | success | end_ | error | oom (toEnd : Bool) | syntax (toEnd : Bool)
  deriving DecidableEq, Repr

/-- The loop of `snek_parse`, snek-parse.c:221-291, over the outcomes of `parse`: whether it returns success; none: it goes on. -/
def parseLoop (interactive : Bool) : List Outcome → Option Bool
  | [] => none
  | .success :: _ => some true
  | .end_ :: _ => some false
  | .error :: l => if interactive then parseLoop interactive l else some false
  | .oom e :: l => if !interactive then some false else if e then some true else parseLoop interactive l
  | .syntax e :: l => if !interactive then some false else if e then some true else parseLoop interactive l

/-- What `getopt_long` reports: `-v`, `-i`, `-?`; it gives '?' for anything it does not know. -/
inductive Opt | version | interactive | help
  deriving DecidableEq, Repr

/-- What `main` did: the exit status, whether the file was run, whether there was a session. -/
structure Result where
  status : Nat
  ran : Bool
  session : Bool
  deriving DecidableEq, Repr

/-- The options, ports/posix/snek-main.c:117-133: leave, or go on with `interactive_flag`. -/
def options (flag : Bool) : List Opt → Option Bool
  | [] => some flag
  | .version :: _ => none
  | .help :: _ => none
  | .interactive :: l => options true l

/-- `main`, ports/posix/snek-main.c:110-165: `file`: an argument was given, and whether it can be opened; `fileOk`, `sessionOk`: the results of
`snek_parse`. -/
def main (opts : List Opt) (file : Option Bool) (fileOk sessionOk : Bool) : Result :=
  match options false opts with
  | none => ⟨0, false, false⟩
  | some flag =>
    match file with
    | some false => ⟨1, false, false⟩
    | _ =>
      let ret := match file with | some _ => fileOk | none => true
      let doInteractive := match file with | some _ => flag | none => true
      let ret := if doInteractive then ret && sessionOk else ret
      ⟨if ret then 0 else 1, file.isSome, doInteractive⟩

end Snek.Posix
