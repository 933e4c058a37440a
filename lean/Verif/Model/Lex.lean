import Verif.Model.Bytecode
/-!
# The lexer

Models `snek-lex.c`. A state holds the characters still to be read (pushed back characters first, then the rest of the input; an
exhausted input yields SNEK_EOF = 0 forever), how many of them sit in the push-back buffer, and the lexer's static variables.

Every C loop is a recursion on an explicit amount of fuel; `none` means that the fuel ran out, so a call that loops forever is
one that yields `none` for every amount of fuel.

Simplifications: the line number (`snek_offset_t`) does not wrap; `snek_alloc` for a string constant and `snek_name_id` succeed
(their failure makes the token invalid and aborts, C19/C12); `snek_abort` stays false during a call (an interrupt ends the
parse); a NUL byte in the input is the end of the input, as in the C code; a name token carries its spelling, the id is
`snek_name_id`'s (C19); a number token carries the text given to `strtof` (see Model/Atof).
-/
namespace Snek.Lex
open Snek.Vm

/-- Characters are bytes. -/
abbrev Ch := UInt8

/-- Keywords, snek-keyword.builtin:14-34. -/
inductive Kw
  | def_ | del | global | assert | if_ | else_ | elif | for_ | from_ | while_ | continue_ | pass | break_ | return_ | import_
  | range | or | and | is | in_ | not
  deriving DecidableEq, Repr

/-- Tokens with their values (`snek_token_val`); terminals of snek-gram.ll. -/
inductive Tok
  | eof | nl | indent (old : Nat) | exdent (new : Nat) | invalid
  | colon | semi | comma | op | cp | os | cs | oc | cc
  | plus | minus | pow | mulop (o : BinOp) | land | lor | lnot | lxor | shift (o : BinOp)
  | cmpop (r : RelOp) | assign (a : AOp)
  | name (t : List Ch) | number (t : List Ch) | string (t : List Ch) | kw (k : Kw)
  deriving DecidableEq, Repr

/-- Build options: `snek_interactive`, SNEK_MAX_TOKEN (snek-lex.c:28-30), SNEK_NO_DICT undefined. -/
structure Cfg where
  interactive : Bool
  maxTok : Nat
  dict : Bool

/-- Static variables of snek-lex.c:17-49 and the characters to come. -/
structure St where
  /-- `ungetbuf[ungetcount-1] … ungetbuf[0]`, then the unread input. -/
  pend : List Ch
  /-- `ungetcount` -/
  back : Nat
  /-- `snek_lex_line` -/
  line : Nat
  /-- `snek_current_indent` -/
  cur : Nat
  /-- `snek_lex_indent` -/
  ind : Nat
  /-- `snek_ignore_nl` -/
  ign : Nat
  /-- `snek_lex_midline` -/
  mid : Bool
  /-- `snek_lex_exdent` -/
  exd : Bool
  /-- `snek_lex_text[0 .. snek_lex_len]` -/
  text : List Ch
  /-- a character was pushed back although `ungetbuf[5]` was full (undefined behaviour in C) -/
  over : Bool
  deriving DecidableEq, Repr

/-- Start of a file: static initialisation and snek-parse.c:225-230. -/
def St.init (input : List Ch) : St := ⟨input, 0, 1, 0, 0, 0, false, false, [], false⟩

/-- `lexchar`, snek-lex.c:61-78. -/
def lexchar (s : St) : Ch × St :=
  match s.pend with
  | [] => (0, s)
  | c :: l => (c, { s with pend := l, back := s.back - 1, line := if c = 10 then s.line + 1 else s.line })

/-- `unlexchar`, snek-lex.c:80-86; `ungetbuf` has five places. -/
def unlexchar (c : Ch) (s : St) : St :=
  { s with pend := c :: s.pend, back := s.back + 1, line := if c = 10 then s.line - 1 else s.line,
           over := s.over || decide (s.back ≥ 5) }

/-- `start_token`, snek-lex.c:88-93. -/
def startToken (s : St) : St := { s with text := [] }

/-- `add_token`, snek-lex.c:95-103. -/
def addToken (C : Cfg) (c : Ch) (s : St) : Bool × St :=
  if s.text.length = C.maxTok then (false, s) else (true, { s with text := s.text ++ [c] })

/-- `lextoken`, snek-lex.c:105-113. -/
def lextoken (C : Cfg) (s : St) : Ch × St :=
  let r := lexchar s
  if r.1 ≠ 0 then
    let a := addToken C r.1 r.2
    if a.1 then (r.1, a.2) else (0, a.2)
  else r

/-- `unlextoken`, snek-lex.c:115-121. -/
def unlextoken (c : Ch) (s : St) : St :=
  let s := unlexchar c s
  { s with text := s.text.dropLast }

/-- `check_equal`, snek-lex.c:123-134. -/
def checkEqual (C : Cfg) (plain : Tok) (op : BinOp) (s : St) : Tok × St :=
  let r := lextoken C s
  if r.1 ≠ 61 then (plain, unlextoken r.1 r.2) else (.assign (.aug op), r.2)

/-- `is_name`, snek-lex.c:136-153. -/
def isName (c : Ch) (first : Bool) : Bool :=
  if c = 95 then true
  else if c ≥ 128 then true
  else if !first && c = 46 then true
  else if !first && 48 ≤ c && c ≤ 57 then true
  else 97 ≤ c ||| 32 && c ||| 32 ≤ 122

/-- `hex`, snek-lex.c:155-164; `none` is -1. -/
def hex (c : Ch) : Option Nat :=
  if 48 ≤ c ∧ c ≤ 57 then some (c.toNat - 48)
  else if 97 ≤ c ||| 32 ∧ c ||| 32 ≤ 102 then some ((c ||| 32).toNat - 87)
  else none

/-- `comment`, snek-lex.c:166-175. The variable `c` receives the result of the comparison `lexchar() != '\n'`, so the test for
SNEK_EOF inside the loop never succeeds. -/
def comment : Nat → St → Option St
  | 0, _ => none
  | n + 1, s =>
    let r := lexchar s
    if r.1 = 10 then some r.2 else comment n r.2

/-- `nstate_t`, snek-lex.c:177-182. -/
inductive NState | int | frac | expsign | exp
  deriving DecidableEq, Repr

/-- `nclass_t`, snek-lex.c:184-191. -/
inductive NClass | digit | dot | e | sign | other | underscore
  deriving DecidableEq, Repr

/-- `cclass`, snek-lex.c:193-207. -/
def cclass (c : Ch) : NClass :=
  if 48 ≤ c ∧ c ≤ 57 then .digit
  else if c = 46 then .dot
  else if c ||| 32 = 101 then .e
  else if c = 45 ∨ c = 43 then .sign
  else if c = 95 then .underscore
  else .other

/-- The state switch of `number`, snek-lex.c:221-268; `none` leaves the loop. -/
def nstep : NState → NClass → Option NState
  | .int, .digit => some .int
  | .int, .underscore => some .int
  | .int, .dot => some .frac
  | .int, .e => some .expsign
  | .frac, .digit => some .frac
  | .frac, .e => some .expsign
  | .expsign, .sign => some .exp
  | .expsign, .digit => some .exp
  | .exp, .digit => some .exp
  | _, _ => none

/-- The loop of `number`, snek-lex.c:216-274. -/
def numLoop (C : Cfg) : Nat → NState → NClass → Ch → St → Option (Tok × St)
  | 0, _, _, _, _ => none
  | k + 1, n, t, c, s =>
    let a := if t ≠ .underscore then addToken C c s else (true, s)
    if a.1 then
      let r := lexchar a.2
      match nstep n (cclass r.1) with
      | some n' => numLoop C k n' (cclass r.1) r.1 r.2
      | none => let s' := unlexchar r.1 r.2; some (.number s'.text, s')
    else some (.invalid, a.2)

/-- `number`, snek-lex.c:209-275. -/
def number (C : Cfg) (k : Nat) (c : Ch) (s : St) : Option (Tok × St) := numLoop C k .int .digit c (startToken s)

/-- The escape switch of `string`, snek-lex.c:299-319: the character, or `none` for an invalid `\x`. `t` is an `int8_t`, so
`hex(c) << 4` with a digit of 8 or more is negative. -/
def escape (s : St) : Option Ch × St :=
  let r := lexchar s
  if r.1 = 110 then (some 10, r.2)
  else if r.1 = 114 then (some 13, r.2)
  else if r.1 = 116 then (some 9, r.2)
  else if r.1 = 120 then
    let r1 := lexchar r.2
    let r2 := lexchar r1.2
    match hex r1.1, hex r2.1 with
    | some a, some b => if a < 8 then (some (UInt8.ofNat (a * 16 + b)), r2.2) else (none, r2.2)
    | _, _ => (none, r2.2)
  else (some r.1, r.2)

/-- The loop of `string`, snek-lex.c:284-323. `strcpy` copies up to the first NUL. -/
def strLoop (C : Cfg) (q : Ch) : Nat → St → Option (Tok × St)
  | 0, _ => none
  | k + 1, s =>
    let r := lexchar s
    if r.1 = q then some (.string (r.2.text.takeWhile (· ≠ 0)), r.2)
    else if r.1 = 10 then some (.invalid, unlexchar r.1 r.2)
    else
      let e := if r.1 = 92 then escape r.2 else (some r.1, r.2)
      match e.1 with
      | none => some (.invalid, e.2)
      | some c =>
        let a := addToken C c e.2
        if a.1 then strLoop C q k a.2 else some (.invalid, a.2)

/-- `string`, snek-lex.c:277-324. -/
def string (C : Cfg) (k : Nat) (q : Ch) (s : St) : Option (Tok × St) := strLoop C q k (startToken s)

/-- `while ((c = lexchar()) == ' ')`, snek-lex.c:338, 384: the number of spaces, the next character. -/
def spaces : Nat → St → Option (Nat × Ch × St)
  | 0, _ => none
  | k + 1, s =>
    let r := lexchar s
    if r.1 = 32 then
      match spaces k r.2 with
      | some (n, c, s') => some (n + 1, c, s')
      | none => none
    else some (0, r.1, r.2)

/-- `while (n > next) unlextoken(*--n)`, snek-lex.c:350-351: `done` is the matched part, last character first. -/
def unmatch : List Ch → St → St
  | [], s => s
  | c :: l, s => unmatch l (unlextoken c s)

/-- The matching loop of `trailing`, snek-lex.c:347-360: was the whole word there? -/
def matchWord (C : Cfg) (space : Bool) (c : Ch) (done : List Ch) : List Ch → St → Bool × St
  | [], s => (true, s)
  | n :: ns, s =>
    if c ≠ n then
      let s := unmatch done (unlextoken c s)
      (false, if space then unlextoken 32 s else s)
    else
      match ns with
      | [] => (true, s)
      | _ :: _ => let r := lextoken C s; matchWord C space r.1 (n :: done) ns r.2

/-- `trailing`, snek-lex.c:330-361. -/
def trailing (C : Cfg) (k : Nat) (next : List Ch) (without with_ : Tok) (s : St) : Option (Tok × St) :=
  match spaces k s with
  | none => none
  | some (n, c, s) =>
    let space : Bool := n ≠ 0
    let s := if space then (addToken C 32 s).2 else s
    let s := (addToken C c s).2
    let r := matchWord C space c [] next s
    some (if r.1 then with_ else without, r.2)

/-- `snek_lex_close`, snek-lex.c:363-369. -/
def lexClose (s : St) : St := if s.ign ≠ 0 then { s with ign := s.ign - 1 } else s

/-- `++snek_ignore_nl` on a `uint8_t`. -/
def lexOpen (s : St) : St := { s with ign := (s.ign + 1) % 256 }

/-- The loop "Find a non-comment line", snek-lex.c:381-400: the first character of the line. -/
def lineStart (C : Cfg) : Nat → St → Option (Ch × St)
  | 0, _ => none
  | k + 1, s =>
    match spaces k { s with ind := 0 } with
    | none => none
    | some (n, c, s) =>
      let s := { s with ind := n % 256 }
      if c = 0 then some (c, { s with ind := 0 })
      else if !C.interactive && c = 10 then lineStart C k s
      else if c = 35 then
        match comment k s with
        | none => none
        | some s => lineStart C k s
      else some (c, s)

/-- Indentation at the beginning of a line, snek-lex.c:378-416: a token to return, or go on. -/
def indentation (C : Cfg) (k : Nat) (s : St) : Option (Option Tok × St) :=
  if s.mid then some (none, s)
  else
    match lineStart C k s with
    | none => none
    | some (c, s) =>
      let s := unlexchar c { s with mid := true }
      if s.ign = 0 then
        if s.cur < s.ind then some (some (.indent s.cur), { s with cur := s.ind })
        else some (none, if s.ind < s.cur then { s with exd := true } else s)
      else some (none, s)

/-- EXDENT tokens, snek-lex.c:422-428. -/
def exdentation (s : St) : Option Tok × St :=
  if s.exd && s.ign == 0 then
    if s.ind < s.cur then (some (.exdent s.ind), s) else (none, { s with exd := false })
  else (none, s)

/-- The loop reading the rest of a name, snek-lex.c:544-547. -/
def nameLoop (C : Cfg) : Nat → St → Option St
  | 0, _ => none
  | k + 1, s =>
    let r := lextoken C s
    if isName r.1 false then nameLoop C k r.2 else some (unlextoken r.1 r.2)

/-- The keyword part of the builtin table (snek-keyword.builtin:14-34, generated by snek-builtin.py); the lookup is C19. -/
def kwOf (t : List Ch) : Option Kw :=
  if t = [100, 101, 102] then some .def_
  else if t = [100, 101, 108] then some .del
  else if t = [103, 108, 111, 98, 97, 108] then some .global
  else if t = [97, 115, 115, 101, 114, 116] then some .assert
  else if t = [105, 102] then some .if_
  else if t = [101, 108, 115, 101] then some .else_
  else if t = [101, 108, 105, 102] then some .elif
  else if t = [102, 111, 114] then some .for_
  else if t = [102, 114, 111, 109] then some .from_
  else if t = [119, 104, 105, 108, 101] then some .while_
  else if t = [99, 111, 110, 116, 105, 110, 117, 101] then some .continue_
  else if t = [112, 97, 115, 115] then some .pass
  else if t = [98, 114, 101, 97, 107] then some .break_
  else if t = [114, 101, 116, 117, 114, 110] then some .return_
  else if t = [105, 109, 112, 111, 114, 116] then some .import_
  else if t = [114, 97, 110, 103, 101] then some .range
  else if t = [111, 114] then some .or
  else if t = [97, 110, 100] then some .and
  else if t = [105, 115] then some .is
  else if t = [105, 110] then some .in_
  else if t = [110, 111, 116] then some .not
  else none

/-- Names and keywords, snek-lex.c:541-567; the first character is already in the text. -/
def word (C : Cfg) (k : Nat) (c : Ch) (s : St) : Option (Tok × St) :=
  if isName c true then
    match nameLoop C k s with
    | none => none
    | some s =>
      match kwOf s.text with
      | some .is => trailing C k [110, 111, 116] (.cmpop .is) (.cmpop .isNot) s
      | some .not => trailing C k [105, 110] (.kw .not) (.cmpop .notIn) s
      | some w => some (.kw w, s)
      | none => some (.name s.text, s)
  else some (.invalid, s)

/-- One of `a` followed by a second character, snek-lex.c:468-481, 492-524. -/
def two (C : Cfg) (second : Ch) (yes no : St → Tok × St) (s : St) : Tok × St :=
  let r := lextoken C s
  if r.1 = second then yes r.2 else no (unlextoken r.1 r.2)

/-- `<` and `>`, snek-lex.c:492-501, 509-518. -/
def angle (C : Cfg) (c : Ch) (op : BinOp) (eq plain : Vm.CmpOp) (s : St) : Tok × St :=
  let r := lextoken C s
  if r.1 = c then checkEqual C (.shift op) op r.2
  else if r.1 = 61 then (.cmpop (.cmp eq), r.2)
  else (.cmpop (.cmp plain), unlextoken r.1 r.2)

/-- The tokens of fixed spelling and strings, numbers, words: the switch of `snek_lex` (snek-lex.c:433-567) without the cases that
`continue`. -/
def token (C : Cfg) (k : Nat) (c : Ch) (s : St) : Option (Tok × St) :=
  if c = 0 then some (.eof, s)
  else if c = 58 then some (.colon, s)
  else if c = 59 then some (.semi, s)
  else if c = 44 then some (.comma, s)
  else if c = 40 then some (.op, lexOpen s)
  else if c = 41 then some (.cp, lexClose s)
  else if c = 91 then some (.os, lexOpen s)
  else if c = 93 then some (.cs, lexClose s)
  else if C.dict && c = 123 then some (.oc, lexOpen s)
  else if C.dict && c = 125 then some (.cc, lexClose s)
  else if c = 43 then some (checkEqual C .plus .plus s)
  else if c = 45 then some (checkEqual C .minus .minus s)
  else if c = 42 then some (two C 42 (checkEqual C .pow .pow) (checkEqual C (.mulop .times) .times) s)
  else if c = 47 then some (two C 47 (checkEqual C (.mulop .div) .div) (checkEqual C (.mulop .divide) .divide) s)
  else if c = 37 then some (checkEqual C (.mulop .mod) .mod s)
  else if c = 38 then some (checkEqual C .land .land s)
  else if c = 124 then some (checkEqual C .lor .lor s)
  else if c = 126 then some (.lnot, s)
  else if c = 94 then some (checkEqual C .lxor .lxor s)
  else if c = 60 then some (angle C 60 .lshift .le .lt s)
  else if c = 61 then some (two C 61 (fun s => (.cmpop (.cmp .eq), s)) (fun s => (.assign .plain, s)) s)
  else if c = 62 then some (angle C 62 .rshift .ge .gt s)
  else if c = 33 then some (two C 61 (fun s => (.cmpop (.cmp .ne), s)) (fun s => (.invalid, s)) s)
  else if c = 34 ∨ c = 39 then string C k c s
  else if (48 ≤ c ∧ c ≤ 57) ∨ c = 46 then number C k c s
  else word C k c s

/-- `snek_lex`, snek-lex.c:371-569. -/
def lex (C : Cfg) : Nat → St → Option (Tok × St)
  | 0, _ => none
  | k + 1, s =>
    match indentation C k s with
    | none => none
    | some (some t, s) => some (t, s)
    | some (none, s) =>
      match exdentation s with
      | (some t, s) => some (t, s)
      | (none, s) =>
        let r := lextoken C (startToken s)
        if r.1 = 10 then
          let s := { r.2 with mid := false }
          if s.ign ≠ 0 then lex C k s else some (.nl, s)
        else if r.1 = 35 then
          match comment k r.2 with
          | none => none
          | some s => lex C k (unlexchar 10 s)
        else if r.1 = 32 then lex C k r.2
        else token C k r.1 r.2

end Snek.Lex
