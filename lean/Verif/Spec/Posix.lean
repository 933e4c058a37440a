import Verif.Model.Posix
/-!
# What reading from a person at a prompt should be
-/
namespace Snek.Posix
open Snek.Lex (Ch)

/-- The characters of an answer: a line and its end; or the end of input. -/
def chars : Option (List Ch) → List (Option Ch)
  | some l => l.map some ++ [some 10]
  | none => [none]

/-- All that is typed. -/
def typed (answers : List (Option (List Ch))) : List (Option Ch) := answers.flatMap chars

/-- The first of what is still to come; end of input after the last. -/
def first : List (Option Ch) → Option Ch
  | [] => none
  | c :: _ => c

/-- What the calls of `snek_getc` should return: the characters one after another; after ^C the end of input, without losing anything, until
the parser starts again. -/
def expect : Bool → List (Option Ch) → List Ev → List (Option Ch)
  | _, _, [] => []
  | true, cs, .getc _ _ :: es => none :: expect true cs es
  | false, cs, .getc _ w :: es => if w = .cleared then none :: expect true cs es else first cs :: expect false cs.tail es
  | _, cs, .sigint :: es => expect true cs es
  | b, cs, .error :: es => expect b cs es
  | _, cs, .reset :: es => expect false cs es

/-- ^C arrives between characters only (or just before one is read), and after the parser started again a character is read before an error is
raised or ^C arrives: `fresh` says that none was read yet. -/
def Orderly : Bool → List Ev → Prop
  | _, [] => True
  | _, .getc _ w :: es => (w = .never ∨ w = .cleared) ∧ Orderly false es
  | f, .sigint :: es => Orderly f es
  | f, .error :: es => f = false ∧ Orderly f es
  | _, .reset :: es => Orderly true es

/-- The prompts that should be seen: one before each line, "+ " in the middle of a command. `start`: the next character starts a line. -/
def prompts : Bool → List (Bool × Option Ch) → List Bool
  | _, [] => []
  | start, (m, c) :: l => (if start then [m] else []) ++ prompts (c = none ∨ c = some 10) l

end Snek.Posix
