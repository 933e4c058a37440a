import Verif.Spec.Lex
/-!
# How tokens are written

The tokens of fixed spelling, words, numbers and strings, and how they follow each other on a logical line: a token extends as far
as it can, tokens may be separated by spaces, and within brackets also by newlines and comments.
-/
namespace Spec.Spelling
open Snek Snek.Vm Snek.Lex

/-- Characters of an ASCII string. -/
def ascii (s : String) : List Ch := s.toList.map fun c => UInt8.ofNat c.toNat

/-- The tokens of fixed spelling. -/
def fixed (dict : Bool) : List (List Ch × Tok) :=
  [(ascii ":", .colon), (ascii ";", .semi), (ascii ",", .comma), (ascii "(", .op), (ascii ")", .cp), (ascii "[", .os), (ascii "]", .cs),
   (ascii "~", .lnot),
   (ascii "+", .plus), (ascii "+=", .assign (.aug .plus)),
   (ascii "-", .minus), (ascii "-=", .assign (.aug .minus)),
   (ascii "*", .mulop .times), (ascii "*=", .assign (.aug .times)),
   (ascii "**", .pow), (ascii "**=", .assign (.aug .pow)),
   (ascii "/", .mulop .divide), (ascii "/=", .assign (.aug .divide)),
   (ascii "//", .mulop .div), (ascii "//=", .assign (.aug .div)),
   (ascii "%", .mulop .mod), (ascii "%=", .assign (.aug .mod)),
   (ascii "&", .land), (ascii "&=", .assign (.aug .land)),
   (ascii "|", .lor), (ascii "|=", .assign (.aug .lor)),
   (ascii "^", .lxor), (ascii "^=", .assign (.aug .lxor)),
   (ascii "<", .cmpop (.cmp .lt)), (ascii "<=", .cmpop (.cmp .le)),
   (ascii "<<", .shift .lshift), (ascii "<<=", .assign (.aug .lshift)),
   (ascii ">", .cmpop (.cmp .gt)), (ascii ">=", .cmpop (.cmp .ge)),
   (ascii ">>", .shift .rshift), (ascii ">>=", .assign (.aug .rshift)),
   (ascii "=", .assign .plain), (ascii "==", .cmpop (.cmp .eq)), (ascii "!=", .cmpop (.cmp .ne))] ++
  if dict then [(ascii "{", .oc), (ascii "}", .cc)] else []

/-- The keywords. `is` and `not` are written like keywords but can be the first of two words. -/
def keywords : List (List Ch × Kw) :=
  [(ascii "def", .def_), (ascii "del", .del), (ascii "global", .global), (ascii "assert", .assert), (ascii "if", .if_), (ascii "else", .else_),
   (ascii "elif", .elif), (ascii "for", .for_), (ascii "from", .from_), (ascii "while", .while_), (ascii "continue", .continue_),
   (ascii "pass", .pass), (ascii "break", .break_), (ascii "return", .return_), (ascii "import", .import_), (ascii "range", .range),
   (ascii "or", .or), (ascii "and", .and), (ascii "in", .in_)]

/-- The text `w`, followed by `rest`, is the token `t`. -/
inductive Spells (C : Cfg) : List Ch → Tok → List Ch → Prop
  /-- operators and punctuation, as long as possible -/
  | fixed {w t c rest} : (w, t) ∈ fixed C.dict → (∀ p ∈ fixed C.dict, ¬ w ++ [c] <+: p.1) → Spells C w t (c :: rest)
  | keyword {w k c rest} : (w, k) ∈ keywords → EndsWord c → Spells C w (.kw k) (c :: rest)
  | name {w c rest} : Word w → (∀ p ∈ keywords, w ≠ p.1) → w ≠ ascii "is" → w ≠ ascii "not" → w.length < C.maxTok → EndsWord c →
      Spells C w (.name w) (c :: rest)
  | number {ip fp ep c rest} : Numeral ip fp ep → ¬ Continues fp ep c → ((ip ++ fp ++ ep).filter (· ≠ 95)).length ≤ C.maxTok →
      Spells C (ip ++ fp ++ ep) (.number ((ip ++ fp ++ ep).filter (· ≠ 95))) (c :: rest)
  | string {q w v rest} : q = 34 ∨ q = 39 → Written q w v → v.length ≤ C.maxTok → Spells C (q :: w ++ [q]) (.string v) rest
  /-- `is` and `not`, and then something that does not begin with the letters of the other word -/
  | is_ {n c x} : c ≠ 32 → (n = 0 → EndsWord c) → ¬ ascii "not" <+: c :: x → Spells C (ascii "is") (.cmpop .is) (List.replicate n 32 ++ c :: x)
  | not {n c x} : c ≠ 32 → (n = 0 → EndsWord c) → ¬ ascii "in" <+: c :: x → Spells C (ascii "not") (.kw .not) (List.replicate n 32 ++ c :: x)
  | isNot {n c rest} : EndsWord c → Spells C (ascii "is" ++ (List.replicate (n + 1) 32 ++ ascii "not")) (.cmpop .isNot) (c :: rest)
  | notIn {n c rest} : EndsWord c → Spells C (ascii "not" ++ (List.replicate (n + 1) 32 ++ ascii "in")) (.cmpop .notIn) (c :: rest)

/-- Depth of open brackets after a token. -/
def after (d : Nat) : Tok → Nat
  | .op => d + 1
  | .os => d + 1
  | .oc => d + 1
  | .cp => d - 1
  | .cs => d - 1
  | .cc => d - 1
  | _ => d

/-- `Text C d n body ts n'`: within `d` brackets, the characters `body`, which begin on line `n`, are the rest of a logical line, up to
and including the newline that ends it; `ts` are its tokens with their lines, and `n'` is the line after it, to which the newline is
counted. -/
inductive Text (C : Cfg) : Nat → Nat → List Ch → List (Tok × Nat) → Nat → Prop
  | newline (n) : Text C 0 n [10] [(.nl, n + 1)] (n + 1)
  | comment {body} (n) : 10 ∉ body → Text C 0 n (35 :: (body ++ [10])) [(.nl, n + 1)] (n + 1)
  | space {d n l ts n'} : Text C d n l ts n' → Text C d n (32 :: l) ts n'
  | joined {d n l ts n'} : Text C (d + 1) (n + 1) l ts n' → Text C (d + 1) n (10 :: l) ts n'
  | joinedComment {d n body l ts n'} : 10 ∉ body → Text C (d + 1) (n + 1) l ts n' → Text C (d + 1) n (35 :: (body ++ 10 :: l)) ts n'
  | token {d n w t l ts n'} : d < 255 → Spells C w t l → Text C (after d t) n l ts n' → Text C d n (w ++ l) ((t, n) :: ts) n'

end Spec.Spelling
