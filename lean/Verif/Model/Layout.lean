import Verif.Model.Lex
import Verif.Model.ParseStmt
/-!
# The tokens of a file

The parser feeds one thing back to the lexer: at the end of an indented block it restores `snek_current_indent` from the value it
saved at its beginning (snek-gram.ll:279-294). `tokens` is the sequence of tokens the parser gets while it accepts them: `open_` is
its stack of saved indentations (`value_push_indent`, `value_pop`, snek-parse.c:73-120).

Simplification: the value stack holds other values between the indentations; each production pops what it pushed (C60, C76).
-/
namespace Snek.Parse
open Snek.Lex

/-- The sequence of tokens up to the end of the input with the line of each (`lex`, snek-parse.c:153-161). `none`: the fuel ran out;
`some none`: the end of a block does not match its beginning (snek-gram.ll:290-293), or there is an invalid token. -/
def tokens (C : Cfg) : Nat → St → List Nat → Option (Option (List (Tok × Nat)))
  | 0, _, _ => none
  | k+1, s, open_ =>
    match lex C k s with
    | none => none
    | some (.eof, s) => some (some [(.eof, s.line)])
    | some (.invalid, _) => some none
    | some (.indent old, s) => (tokens C k s (old :: open_)).map fun r => r.map ((.indent old, s.line) :: ·)
    | some (.exdent new, s) =>
      match open_ with
      | [] => some none
      | i :: open_ =>
        if new > i then some none
        else (tokens C k { s with cur := i } open_).map fun r => r.map ((.exdent new, s.line) :: ·)
    | some (t, s) => (tokens C k s open_).map fun r => r.map ((t, s.line) :: ·)

/-- A file: lexing and parsing, snek-parse.c:221-249. -/
def program (C : Cfg) (id : List Ch → Nat) (num : List Ch → BitVec 32) (str : List Ch → Nat) (k : Nat) (text : List Ch) : Option (List Cmd) :=
  match tokens C k (St.init text) [] with
  | some (some ts) => start k (ts.map fun p => (ofTok id num str p.1, p.2))
  | _ => none

end Snek.Parse
