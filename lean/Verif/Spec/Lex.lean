import Verif.Model.Lex
/-!
# Specification vocabulary for the lexer properties
-/
namespace Snek.Lex

/-- States in which the parser can call the lexer while a text is read. Between calls the parser only sets the layout variables
(snek-parse.c:225-230, 269, 279; snek-gram.ll:289); which values it sets is left open. -/
inductive Reach (C : Cfg) (text : List Ch) : St → Prop
  | start : Reach C text (St.init text)
  | call {s s' : St} {k : Nat} {t : Tok} : Reach C text s → lex C k s = some (t, s') → Reach C text s'
  | parser {s : St} (cur ind ign : Nat) (mid exd : Bool) : Reach C text s →
      Reach C text { s with cur := cur, ind := ind, ign := ign, mid := mid, exd := exd }

/-- Every comment in the text is ended by a newline. -/
def CommentsEnd (text : List Ch) : Prop := ∀ u v, text = u ++ 35 :: v → 10 ∈ v

/-- What may stand between tokens: spaces, newlines, comments. -/
inductive Blank : List Ch → Prop
  | nil : Blank []
  | space {l : List Ch} : Blank l → Blank (32 :: l)
  | newline {l : List Ch} : Blank l → Blank (10 :: l)
  | comment {body l : List Ch} : 10 ∉ body → Blank l → Blank (35 :: body ++ 10 :: l)

/-- Tokens made of characters (not layout, not errors). -/
def Tok.proper : Tok → Bool
  | .eof => false
  | .nl => false
  | .indent _ => false
  | .exdent _ => false
  | .invalid => false
  | _ => true

/-- Called in state `s`, the lexer returns the token `t` and is then in state `s'`. -/
def Lexes (C : Cfg) (s : St) (t : Tok) (s' : St) : Prop := ∃ k, ∀ m, k ≤ m → lex C m s = some (t, s')

/-- In the middle of a line: the indentation of the line has been dealt with. -/
def Ready (s : St) : Prop := s.mid = true ∧ (s.exd = true → s.cur ≤ s.ind)

/-- Same place in the block structure and on the same line; `ign` is the depth of open brackets. -/
structure Stays (s s' : St) (ign : Nat) : Prop where
  ready : Ready s'
  line : s'.line = s.line
  cur : s'.cur = s.cur
  ind : s'.ind = s.ind
  ign : s'.ign = ign
  exd : s.exd = false → s'.exd = false

/-- Decimal digits. -/
def Digit (c : Ch) : Prop := 48 ≤ c ∧ c ≤ 57

/-- Value of a string of decimal digits; underscores do not count. -/
def decimal (l : List Ch) : Nat := (l.filter (· ≠ 95)).foldl (fun a c => 10 * a + (c.toNat - 48)) 0

/-- The number literals: an integer part (digits, then digits and underscores), an optional fraction, an optional exponent. -/
structure Numeral (ip fp ep : List Ch) : Prop where
  int : ∃ d ds, ip = d :: ds ∧ Digit d ∧ ∀ x ∈ ds, Digit x ∨ x = 95
  frac : fp = [] ∨ ∃ ds, fp = 46 :: ds ∧ ∀ x ∈ ds, Digit x
  exp : ep = [] ∨ ∃ e sg d ds, ep = e :: (sg ++ d :: ds) ∧ (e = 101 ∨ e = 69) ∧ (sg = [] ∨ sg = [43] ∨ sg = [45]) ∧ Digit d ∧
    ∀ x ∈ ds, Digit x

/-- The exponent written. -/
def exponentOf : List Ch → Int
  | _ :: 45 :: ds => -(decimal ds : Int)
  | _ :: 43 :: ds => decimal ds
  | _ :: ds => decimal ds
  | [] => 0

/-- A number literal stands for `n * 10^e`: the digits of integer part and fraction as one number, and the exponent less the number of
digits in the fraction. -/
def Stands (ip fp ep : List Ch) (n : Nat) (e : Int) : Prop := n = decimal (ip ++ fp.drop 1) ∧ e = exponentOf ep - (fp.length - 1 : Nat)

/-- Numerator and denominator of `n * 10^e`. -/
def num10 (n : Nat) (e : Int) : Nat := n * 10 ^ e.toNat
def den10 (e : Int) : Nat := 10 ^ (-e).toNat

/-- Characters that would continue the literal. -/
def Continues (fp ep : List Ch) (c : Ch) : Prop :=
  Digit c ∨ (ep = [] ∧ (c = 101 ∨ c = 69)) ∨ (fp = [] ∧ ep = [] ∧ (c = 46 ∨ c = 95))

/-- Hexadecimal digits of either case and their values. -/
inductive HexDigit : Ch → Nat → Prop
  | dec (c : Ch) : 48 ≤ c → c ≤ 57 → HexDigit c (c.toNat - 48)
  | low (c : Ch) : 97 ≤ c → c ≤ 102 → HexDigit c (c.toNat - 87)
  | up (c : Ch) : 65 ≤ c → c ≤ 70 → HexDigit c (c.toNat - 55)

/-- `Written q w v`: between quotes `q`, the characters `w` stand for the string `v`. -/
inductive Written (q : Ch) : List Ch → List Ch → Prop
  | nil : Written q [] []
  /-- an ordinary character -/
  | plain {c : Ch} {w v : List Ch} : c ≠ q → c ≠ 10 → c ≠ 92 → c ≠ 0 → Written q w v → Written q (c :: w) (c :: v)
  /-- `\n` -/
  | nl {w v : List Ch} : Written q w v → Written q (92 :: 110 :: w) (10 :: v)
  /-- `\r` -/
  | cr {w v : List Ch} : Written q w v → Written q (92 :: 114 :: w) (13 :: v)
  /-- `\t` -/
  | tab {w v : List Ch} : Written q w v → Written q (92 :: 116 :: w) (9 :: v)
  /-- `\xab`, up to `\x7f` and not NUL -/
  | hex {c d : Ch} {a b : Nat} {w v : List Ch} : HexDigit c a → HexDigit d b → a < 8 → 0 < 16 * a + b → Written q w v →
      Written q (92 :: 120 :: c :: d :: w) (UInt8.ofNat (16 * a + b) :: v)
  /-- any other character after a backslash stands for itself -/
  | esc {c : Ch} {w v : List Ch} : c ≠ 110 → c ≠ 114 → c ≠ 116 → c ≠ 120 → c ≠ 10 → c ≠ 0 → Written q w v → Written q (92 :: c :: w) (c :: v)

/-- One way of writing any string. -/
def writeString (q : Ch) : List Ch → List Ch
  | [] => []
  | c :: v => (if c = 10 then [92, 110] else if c = 92 ∨ c = q then [92, c] else [c]) ++ writeString q v

/-- Identifiers and keywords: a letter, underscore or byte above 127, then also digits and dots. -/
def Word (w : List Ch) : Prop :=
  ∃ c l, w = c :: l ∧ (c = 95 ∨ 128 ≤ c ∨ (65 ≤ c ∧ c ≤ 90) ∨ (97 ≤ c ∧ c ≤ 122)) ∧
    ∀ x ∈ l, x = 95 ∨ 128 ≤ x ∨ (65 ≤ x ∧ x ≤ 90) ∨ (97 ≤ x ∧ x ≤ 122) ∨ (48 ≤ x ∧ x ≤ 57) ∨ x = 46

/-- Characters that end a word. -/
def EndsWord (c : Ch) : Prop :=
  c ≠ 0 ∧ ¬ (c = 95 ∨ 128 ≤ c ∨ (65 ≤ c ∧ c ≤ 90) ∨ (97 ≤ c ∧ c ≤ 122) ∨ (48 ≤ c ∧ c ≤ 57) ∨ c = 46)

end Snek.Lex
