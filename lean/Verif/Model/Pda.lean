import Verif.Model.ParseStmt
import Verif.Model.Compile
/-!
# The table-driven parser and its actions

The parser as it runs on the machine: a stack of grammar symbols, the token it has looked at, and the actions of snek-gram.ll, which
write to the compile buffer as they are met and keep what they need later on the value stack (snek-parse.c:49-147). The program
that executes the grammar is generated by `lola` and not in the repository. It is taken to be the LL(1) machine of the grammar: it
expands the nonterminal on top of its stack by the production the next token selects, matches terminals, runs actions; it reads the
next token (`lex`, snek-parse.c:153-161) when it needs one and not before (the actions use `snek_token_val` of the token matched last);
and gives up (`parse_return_oom`) when its stack of PARSE_STACK_SIZE symbols is full. A nullable nonterminal is skipped when the
token starts none of its other productions; a token that starts nothing is found by the innermost nonterminal.

`Model/Parse`, `Model/ParseStmt` read the same grammar by recursive functions and return trees; `Model/Compile` gives the code for
a tree. C76 shows that this machine writes that code.

Simplifications: memory does not run out, offsets do not wrap (`Buf`); `snek_offset_t` values on the value stack are not truncated;
the levels of binary operators are one nonterminal with the level as parameter, `cmpop` (snek-gram.ll:354-357) is a terminal;
slices and dictionaries are compiled in; whether the result of a command is printed (`snek_print_val`) is left out;
commands are recorded instead of executed.
-/
namespace Snek.Pda
open Snek.Vm Snek.Lang Snek.Lex Snek.Parse

/-- Terminals. -/
inductive Tm
  | kw (k : Kw) | nl | indent | exdent | colon | semi | comma | op | cp | os | cs | oc | cc | assign | name | number | string
  | lnot | minus | plus | pow | bin (l : Nat) | rel
  deriving DecidableEq, Repr

/-- Is the token this terminal? -/
def Tm.is : Tm → T → Bool
  | .kw k, t => t == .kw k
  | .nl, t => t == .nl
  | .indent, .indent _ => true
  | .exdent, .exdent _ => true
  | .colon, t => t == .colon
  | .semi, t => t == .semi
  | .comma, t => t == .comma
  | .op, t => t == .op
  | .cp, t => t == .cp
  | .os, t => t == .os
  | .cs, t => t == .cs
  | .oc, t => t == .oc
  | .cc, t => t == .cc
  | .assign, .assign _ => true
  | .name, .name _ => true
  | .number, .number _ => true
  | .string, .string _ => true
  | .lnot, t => t == .lnot
  | .minus, t => t == .bin .minus
  | .plus, t => t == .bin .plus
  | .pow, t => t == .bin .pow
  | .bin l, t => (binTok l t).isSome
  | .rel, t => (relTok t).isSome
  | _, _ => false

/-- Nonterminals. `lvl` and `tail` are the chain `expr` … `expr-prim` and its `-p` nonterminals, numbered as in `Parse.lvl`. -/
inductive NT
  | start | command | optFormals | formals | formalsP | formal | optNamedP | optStats | stat | simpleStat | smallStatsP | smallStat
  | delsP | del | retExpr | assignExpr | assignExprP | globals | globalsP | global | compoundStat | ifStat | elifStats | ifExpr
  | whileStat | whileElse | forStat | forParams | suite
  | lvl (l : Nat) | tail (l : Nat)
  | arrayIndex | optSlice | slice | sliceP | optExpr | stringsP | optTuple | optTupleP | optActuals | actuals | actualP | actualsP
  | actualsEnd | optEnts | entsP | entsEnd | ent
  deriving DecidableEq, Repr

/-- Actions. -/
inductive Act
  | finish | defName | defEnd | formal | named | notNamed | addLine | ret | null | brk | cont | assert_ | delLvalue | lvalue | opLvalue
  | global | ifEnd | elif | elseB | elifEnd | pushCur | ifExpr | whileTest | loopEnd | patchLoop | forName | forEnd | rangeEnd | inEnd
  | indent | exdent
  | boolBranch (onTrue : Bool) | shortSecond | unopFirst | uminus | unopSecond | push0 | push1 | cmpEnd | cmpLink | binopFirst
  | binopSecond | setPush | index | call | optExpr | tuple | list | dict | name | number | string | stringCat | tupleP | notTuple
  | argName | argNamed | argPos | entPart
  deriving DecidableEq, Repr

/-- Symbols of the parse stack. -/
inductive Sym
  | t (t : Tm) | n (n : NT) | a (a : Act)
  deriving DecidableEq, Repr

/-- FIRST set of `expr`. -/
def startsE1 (t : T) : Bool := startsExpr [t]

/-- FIRST set of `stat`. -/
def startsStat1 (t : T) : Bool := startsStat [(t, 0)]

open Sym in
/-- The nonterminals `expr` … `expr-prim`, snek-gram.ll:296-520. -/
def prodLvl : Nat → T → Option (List Sym)
  | 2, .kw .not => some [t (.kw .not), a .unopFirst, n (.lvl 2), a .unopSecond]                 -- :315
  | 2, _ => some [n (.lvl 3)]                                                                   -- :314
  | 3, _ => some [n (.lvl 4), a .push0, n (.tail 3), a .cmpEnd]                                 -- :317-329
  | 10, .lnot => some [t .lnot, a .unopFirst, n (.lvl 10), a .unopSecond]                       -- :389
  | 10, .bin .minus => some [t .minus, a .uminus, n (.lvl 10), a .unopSecond]                   -- :390
  | 10, .bin .plus => some [t .plus, n (.lvl 10)]                                               -- :391
  | 10, _ => some [n (.lvl 11)]                                                                 -- :392
  | 13, .op => some [t .op, n .optTuple, t .cp, a .tuple]                                       -- :482-487
  | 13, .os => some [t .os, n .optActuals, t .cs, a .list]                                      -- :488-494
  | 13, .oc => some [t .oc, a .push0, n .optEnts, t .cc, a .dict]                               -- :496-506
  | 13, .name _ => some [t .name, a .name]                                                      -- :508-511
  | 13, .number _ => some [t .number, a .number]                                                -- :512-515
  | 13, .string _ => some [t .string, a .string, n .stringsP]                                   -- :516-520
  | 13, _ => none
  | l, _ => some [n (.lvl (l + 1)), n (.tail l)]                                                -- :296, 305, 358-404

open Sym in
/-- The nonterminals `expr-or-p` … `expr-array-p`, snek-gram.ll:298-440. -/
def prodTail : Nat → T → Option (List Sym)
  | 0, .kw .or => some [t (.kw .or), a (.boolBranch true), n (.lvl 1), a .shortSecond, n (.tail 0)]    -- :298-304
  | 1, .kw .and => some [t (.kw .and), a (.boolBranch false), n (.lvl 2), a .shortSecond, n (.tail 1)] -- :307-313
  | 3, tk => if (relTok tk).isSome then                                                        -- :330-353
      some [t .rel, a .cmpLink, n (.lvl 4), a .binopSecond, n (.tail 3)] else some []
  | 11, .bin .pow => some [t .pow, a .binopFirst, n (.lvl 11), a .binopSecond]                 -- :400-402
  | 12, .os => some [t .os, a .setPush, n .arrayIndex, t .cs, a .index, n (.tail 12)]          -- :405-430
  | 12, .op => some [t .op, a .setPush, n .optActuals, t .cp, a .call, n (.tail 12)]           -- :431-439
  | l, tk => if (binTok l tk).isSome then                                                      -- :360-388
      some [t (.bin l), a .binopFirst, n (.lvl (l + 1)), a .binopSecond, n (.tail l)] else some []

open Sym in
/-- The grammar, snek-gram.ll:14-633: the production of a nonterminal the next token selects; `none`: a syntax error. -/
def prod : NT → T → Option (List Sym)
  | .start, .eof => some []                                                                          -- :14-16
  | .start, _ => some [n .command, n .start]
  | .command, .kw .def_ =>                                                                           -- :31-53
    some [t (.kw .def_), t .name, a .defName, t .op, n .optFormals, t .cp, t .colon, n .suite, a .defEnd]
  | .command, .kw .import_ => some [t (.kw .import_), t .name]                                       -- :54
  | .command, .kw .from_ => some [t (.kw .from_), t .name, t (.kw .import_), t (.bin 9)]             -- :55
  | .command, _ => some [n .stat, a .finish]                                                         -- :17-30
  | .optFormals, .name _ => some [n .formals]                                                        -- :57-59
  | .optFormals, _ => some []
  | .formals, _ => some [n .formal, n .formalsP]                                                     -- :60
  | .formalsP, .comma => some [t .comma, n .formal, n .formalsP]                                     -- :62-64
  | .formalsP, _ => some []
  | .formal, _ => some [t .name, a .formal, n .optNamedP]                                            -- :65-70
  | .optNamedP, .assign _ => some [t .assign, n (.lvl 0), a .named]                                  -- :71-75
  | .optNamedP, _ => some [a .notNamed]                                                              -- :76-80
  | .optStats, tk => if startsStat1 tk then some [n .stat, n .optStats] else some []                   -- :82-84
  | .stat, .nl => some [t .nl]                                                                       -- :88
  | .stat, .kw .if_ => some [a .addLine, n .compoundStat]                                            -- :86-87
  | .stat, .kw .while_ => some [a .addLine, n .compoundStat]
  | .stat, .kw .for_ => some [a .addLine, n .compoundStat]
  | .stat, _ => some [n .simpleStat]                                                                 -- :85
  | .simpleStat, _ => some [a .addLine, n .smallStat, n .smallStatsP, t .nl]                         -- :90
  | .smallStatsP, .semi => some [t .semi, n .smallStat, n .smallStatsP]                              -- :92-94
  | .smallStatsP, _ => some []
  | .smallStat, .kw .return_ => some [t (.kw .return_), n .retExpr, a .ret]                          -- :96-97
  | .smallStat, .kw .break_ => some [t (.kw .break_), a .brk]                                        -- :98-99
  | .smallStat, .kw .continue_ => some [t (.kw .continue_), a .cont]                                 -- :100-101
  | .smallStat, .kw .pass => some [t (.kw .pass)]                                                    -- :102
  | .smallStat, .kw .global => some [t (.kw .global), n .globals]                                    -- :103
  | .smallStat, .kw .del => some [t (.kw .del), n .del, n .delsP]                                    -- :104
  | .smallStat, .kw .assert => some [t (.kw .assert), n (.lvl 0), a .assert_]                        -- :105-106
  | .smallStat, _ => some [n .assignExpr]                                                            -- :95
  | .delsP, .comma => some [t .comma, n .del, n .delsP]                                              -- :109-112
  | .delsP, _ => some []
  | .del, _ => some [n (.lvl 12), a .delLvalue, a .opLvalue]                                         -- :113-119
  | .retExpr, tk => if startsE1 tk then some [n (.lvl 0)] else some [a .null]                          -- :120-123
  | .assignExpr, _ => some [n (.lvl 0), n .assignExprP]                                              -- :124
  | .assignExprP, .assign _ => some [t .assign, a .lvalue, n (.lvl 0), a .opLvalue]                  -- :126-158
  | .assignExprP, _ => some []
  | .globals, .name _ => some [n .global, n .globalsP]                                               -- :160-162
  | .globals, _ => some []
  | .globalsP, .comma => some [t .comma, n .global, n .globalsP]                                     -- :163-165
  | .globalsP, _ => some []
  | .global, _ => some [t .name, a .global]                                                          -- :166-170
  | .compoundStat, .kw .if_ => some [n .ifStat]                                                      -- :171-174
  | .compoundStat, .kw .while_ => some [n .whileStat]
  | .compoundStat, .kw .for_ => some [n .forStat]
  | .compoundStat, _ => none
  | .ifStat, _ => some [t (.kw .if_), n .ifExpr, n .suite, n .elifStats, a .ifEnd]                   -- :175-183
  | .elifStats, .kw .elif => some [t (.kw .elif), a .elif, n .ifExpr, n .suite, n .elifStats, a .elifEnd]  -- :184-197
  | .elifStats, .kw .else_ => some [t (.kw .else_), t .colon, a .elseB, n .suite]                    -- :198-202
  | .elifStats, _ => some [a .pushCur]                                                               -- :203-206
  | .ifExpr, _ => some [n (.lvl 0), t .colon, a .ifExpr]                                             -- :208-215
  | .whileStat, _ =>                                                                                 -- :216-237
    some [a .pushCur, t (.kw .while_), n (.lvl 0), t .colon, a .whileTest, n .suite, a .loopEnd, n .whileElse, a .patchLoop]
  | .whileElse, .kw .else_ => some [t (.kw .else_), t .colon, n .suite]                              -- :238-240
  | .whileElse, _ => some []
  | .forStat, _ =>                                                                                   -- :241-257
    some [t (.kw .for_), t .name, a .forName, t (.kw .in_), n .forParams, n .suite, a .loopEnd, a .forEnd, n .whileElse, a .patchLoop]
  | .forParams, .kw .range => some [t (.kw .range), t .op, n .optActuals, t .cp, t .colon, a .rangeEnd]  -- :258-271
  | .forParams, _ => some [n (.lvl 0), t .colon, a .inEnd]                                           -- :272-277
  | .suite, .nl => some [t .nl, t .indent, a .indent, n .stat, n .optStats, t .exdent, a .exdent]    -- :280-294
  | .suite, _ => some [n .simpleStat]                                                                -- :279
  -- expressions
  | .lvl l, tk => prodLvl l tk
  | .tail l, tk => prodTail l tk
  | .arrayIndex, tk => if startsE1 tk then some [n (.lvl 0), n .optSlice] else some [a .push0, n .slice]   -- :443-448
  | .optSlice, .colon => some [a .push1, n .slice]                                                   -- :449-454
  | .optSlice, _ => some [a .push0]                                                                  -- :455-458
  | .slice, _ => some [t .colon, n .optExpr, n .sliceP, a .push1]                                    -- :460-464
  | .sliceP, .colon => some [t .colon, n .optExpr]                                                   -- :465
  | .sliceP, _ => some [a .push0]                                                                    -- :466-469
  | .optExpr, tk => if startsE1 tk then some [a .optExpr, n (.lvl 0)] else some [a .push0]             -- :471-480
  | .stringsP, .string _ => some [t .string, a .stringCat, n .stringsP]                              -- :522-530
  | .stringsP, _ => some []
  | .optTuple, tk => if startsE1 tk then some [n (.lvl 0), n .optTupleP] else some [a .push0]          -- :532-538
  | .optTupleP, .comma => some [t .comma, a .setPush, n .optActuals, a .tupleP]                      -- :539-550
  | .optTupleP, _ => some [a .notTuple]                                                              -- :551-555
  | .optActuals, tk => if startsE1 tk then some [n .actuals] else some [a .push0]                      -- :557-563
  | .actuals, _ => some [a .push0, n (.lvl 0), n .actualP, n .actualsP]                              -- :564-570
  | .actualP, .assign _ => some [t .assign, a .argName, n (.lvl 0), a .argNamed]                     -- :571-594
  | .actualP, _ => some [a .argPos]                                                                  -- :595-604
  | .actualsP, .comma => some [t .comma, n .actualsEnd]                                              -- :606-608
  | .actualsP, _ => some []
  | .actualsEnd, tk => if startsE1 tk then some [n (.lvl 0), n .actualP, n .actualsP] else some []     -- :609-611
  | .optEnts, tk => if startsE1 tk then some [n .ent, n .entsP] else some []                           -- :613-615
  | .entsP, .comma => some [t .comma, n .entsEnd]                                                    -- :616-618
  | .entsP, _ => some []
  | .entsEnd, tk => if startsE1 tk then some [n .ent, n .entsP] else some []                           -- :619-621
  | .ent, _ => some [n (.lvl 0), a .entPart, t .colon, n (.lvl 0), a .entPart]                       -- :622-632

/-- What a command leaves: the code of a statement, or a function with its name, its formals and the number of those with a default
(snek-gram.ll:17-53, snek-func.c:20-35). -/
inductive Code
  | stat (code : List UInt8)
  | fn (x : Nat) (formals : List Nat) (nnamed : Nat) (code : List UInt8)
  deriving DecidableEq, Repr

/-- The state of the parser but for its stack: the value stack (top first), the compile buffer, `for_depth`, `snek_parse_formals`,
`snek_parse_nnamed`, the commands read, the tokens to come, whether the first of them has been read, `snek_token_val` (with the token
it belongs to) and `snek_lex_line`. -/
structure PSt where
  vals : List Nat
  buf : Buf
  fd : Nat
  formals : List Nat
  nnamed : Nat
  out : List Code
  ts : List LT
  la : Bool
  tv : T
  line : Nat
  deriving DecidableEq, Repr

/-- The next token (END when there is none). -/
def hd : List LT → LT
  | [] => (.eof, 0)
  | t :: _ => t

/-- `lex`, snek-parse.c:153-161. -/
def PSt.look (s : PSt) : PSt := { s with la := true, tv := (hd s.ts).1, line := (hd s.ts).2 }

/-- Result of an action: go on, `return parse_return_syntax`, or an access outside of an array. -/
inductive ARes
  | ok (s : PSt) | syntax | fault
  deriving DecidableEq, Repr

/-- The sizes of the machine: bytes of an offset, VALUE_STACK_SIZE (snek-parse.c:49-51), SNEK_MAX_FORMALS (snek.h:792). -/
structure Sizes where
  W : Nat
  V : Nat
  F : Nat

variable (z : Sizes) (conv : BitVec 32 → BitVec 8)

/-- `_value_push`, snek-parse.c:89-100: when the stack is full nothing is pushed. All callers ignore the result. -/
def PSt.push (v : Nat) (s : PSt) : PSt := if s.vals.length ≥ z.V then s else { s with vals := v :: s.vals }

/-- `_value_pop`, snek-parse.c:73-87 (without SNEK_DEBUG): from the empty stack it reads `value_stack[-1]`. -/
def PSt.pop (s : PSt) (k : Nat → PSt → ARes) : ARes :=
  match s.vals with
  | [] => .fault
  | v :: vs => k v { s with vals := vs }

/-- A change of the compile buffer. -/
def PSt.code (f : Buf → Buf) (s : PSt) : PSt := { s with buf := f s.buf }

/-- `snek_code_add_op`, snek-code.c:130-136, and the other functions that append an opcode given as a number and operand bytes. -/
def addRaw (op : Nat) (operands : List UInt8) (b : Buf) : Buf := ⟨b.bytes ++ UInt8.ofNat op :: operands, b.bytes.length, b.prev⟩

/-- `snek_token_val.op` of the tokens that have an operator, snek-lex.c:295-565. -/
def tokOp : T → Nat
  | .bin o => 17 + o.num
  | .cmpop r => r.num
  | .kw .in_ => 14
  | .kw .is => 12
  | .kw .not => 50
  | .lnot => 52
  | .assign a => a.num
  | _ => 0

/-- `snek_token_val.id`. -/
def tokId : T → Nat
  | .name x => x
  | _ => 0

/-- `snek_token_val.indent`. -/
def tokIndent : T → Nat
  | .indent n => n
  | .exdent n => n
  | _ => 0

/-- `extract_lvalue`, snek-gram.ll:128-156, with `snek_token_val.op` as an argument (`del` stores its opcode there, :115). -/
def lvalue (op : Nat) (s : PSt) : ARes :=
  let b := s.buf
  let c := (b.bytes[b.prev]?.getD 0).toNat
  if c = 49 then
    .ok ((((s.push z (rd b.bytes z.W (b.prev + 1))).push z op)).code Buf.deletePrev)
  else if c = 16 then
    .ok (((((s.code fun b => if op ≠ 56 then b.setPush b.prevPrev else b).push z 0).push z op)).code Buf.deletePrev)
  else .syntax

/-- The actions. -/
def act : Act → PSt → ARes
  | .finish, s => .ok { s with out := s.out ++ [.stat s.buf.bytes], buf := Buf.empty }               -- :18-30
  | .defName, s => .ok ({ s with formals := [], nnamed := 0 }.push z (tokId s.tv))                   -- :32-36
  | .defEnd, s =>                                                                                    -- :38-53
    let b := if (s.buf.bytes[s.buf.prev]?.getD 0).toNat = 65 then s.buf.deletePrev else addRaw 67 [] s.buf
    s.pop fun id s => .ok { s with out := s.out ++ [.fn id s.formals s.nnamed b.bytes], buf := Buf.empty }
  | .formal, s =>                                                                                    -- :66-68
    if s.formals.length ≥ z.F then .fault else .ok { s with formals := s.formals ++ [tokId s.tv] }
  | .named, s =>                                                                                     -- :72-75
    .ok ({ s with nnamed := s.nnamed + 1 }.code (addRaw 42 (leBytes z.W (s.formals.getLastD 0))))
  | .notNamed, s => if s.nnamed ≠ 0 then .syntax else .ok s                                          -- :77-80
  | .addLine, s => .ok (s.code (addRaw 66 (leBytes z.W s.line)))                                     -- :86, 90, snek-code.c:234-238
  | .ret, s => .ok (s.code (addRaw 65 []))                                                           -- :97
  | .null, s => .ok (s.code (addRaw 67 []))                                                          -- :122
  | .brk, s => .ok (s.code (Buf.addForward z.W fwBreak))                                             -- :99
  | .cont, s => .ok (s.code (Buf.addForward z.W fwContinue))                                         -- :101
  | .assert_, s => .ok (s.code (addRaw 57 []))                                                       -- :106
  | .delLvalue, s => lvalue z 56 s                                                                   -- :114-117
  | .lvalue, s => lvalue z (tokOp s.tv) s                                                            -- :127-156
  | .opLvalue, s => s.pop fun op s => s.pop fun id s => .ok (s.code (addRaw op (leBytes z.W id)))    -- snek-parse.c:174-181
  | .global, s => .ok (s.code (addRaw 55 (leBytes z.W (tokId s.tv))))                                -- :167-169
  | .ifEnd, s => s.pop fun elifOff s => s.pop fun ifOff s =>                                         -- :176-182
    .ok (s.code fun b => let b := b.patchBranch z.W ifOff elifOff; b.patchFwd z.W ifOff b.cur fwIf b.cur)
  | .elif, s =>                                                                                      -- :185-190
    let s := s.code fun b => (addRaw 66 (leBytes z.W s.line) b).addForward z.W fwIf
    .ok (s.push z s.buf.cur)
  | .elseB, s =>                                                                                     -- :199-201 (goto else_branch)
    let s := s.code fun b => b.addForward z.W fwIf
    .ok (s.push z s.buf.cur)
  | .elifEnd, s => s.pop fun elifOff s => s.pop fun ifOff s => .ok (s.code (Buf.patchBranch z.W ifOff elifOff))  -- :192-196
  | .pushCur, s => .ok (s.push z s.buf.cur)                                                          -- :203-206, 217-220
  | .ifExpr, s =>                                                                                    -- :209-214
    let s := s.code (addRaw 60 (leBytes z.W 0))
    .ok (s.push z s.buf.prev)
  | .whileTest, s =>                                                                                 -- :222-226
    let s := s.code (addRaw 60 (leBytes z.W 0))
    .ok (s.push z s.buf.prev)
  | .loopEnd, s =>                                                                                   -- :228-234, 246-252
    let s := s.code (addRaw 58 (leBytes z.W 0))
    .ok ((s.push z s.buf.prev).push z s.buf.cur)
  | .patchLoop, s =>                                                                                 -- snek-parse.c:183-194
    s.pop fun elseOff s => s.pop fun endOff s => s.pop fun whileOff s => s.pop fun topOff s =>
      .ok (s.code (Lang.patchLoop z.W topOff whileOff endOff elseOff))
  | .forName, s => .ok (s.push z (tokId s.tv))                                                       -- :242-244
  | .forEnd, s => .ok { s with fd := s.fd - 1 }                                                      -- :252-254
  | .rangeEnd, s => s.pop fun num s =>                                                               -- :259-271
    if num ≥ 256 then .syntax else s.pop fun id s =>
      let ops := fun n => leBytes z.W n ++ UInt8.ofNat s.fd :: leBytes z.W id
      let s := s.code fun b => addRaw 63 (ops 0) (addRaw 62 (ops num) b)                             -- snek-code.c:194-206
      .ok { (s.push z s.buf.prev).push z s.buf.prev with fd := s.fd + 1 }
  | .inEnd, s => s.pop fun id s =>                                                                   -- :273-277
      let d := UInt8.ofNat s.fd
      let s := s.code fun b =>                                                                       -- snek-code.c:211-232
        let b := addRaw 41 (leBytes z.W (forTmp z.W d 0)) b
        let b := b.add z.W (numIns conv 0)
        let b := addRaw 41 (leBytes z.W (forTmp z.W d 1)) b
        addRaw 64 (leBytes z.W 0 ++ d :: leBytes z.W id) b
      .ok { (s.push z s.buf.prev).push z s.buf.prev with fd := s.fd + 1 }
  | .indent, s => .ok (s.push z (tokIndent s.tv))                                                    -- :281-283
  | .exdent, s => s.pop fun indent s => if tokIndent s.tv > indent then .syntax else .ok s           -- :285-294
  | .boolBranch onTrue, s =>                                                                         -- snek-parse.c:212-216
    let s := s.code (addRaw (if onTrue then 59 else 60) (leBytes z.W 0))
    .ok (s.push z s.buf.prev)
  | .shortSecond, s => s.pop fun off s => .ok (s.code fun b => addRaw 68 [] (b.patchBranch z.W off b.cur))  -- snek-parse.c:196-200
  | .unopFirst, s => .ok (s.push z (tokOp s.tv))                                                     -- snek-parse.c:202-205
  | .uminus, s => .ok (s.push z 51)                                                                  -- :390
  | .unopSecond, s => s.pop fun op s => .ok (s.code (addRaw op []))                                  -- snek-parse.c:207-210
  | .push0, s => .ok (s.push z 0)                                                                    -- :318-320, 445, 457, 468, 479, 497-500, 536, 562, 567
  | .push1, s => .ok (s.push z 1)                                                                    -- :451, 462
  | .cmpEnd, s => s.pop fun off s =>                                                                 -- :322-328
    .ok (if off ≠ 0 then s.code fun b => addRaw 68 [] (b.patchFwd z.W off b.cur fwCmp b.cur) else s)
  | .cmpLink, s =>                                                                                   -- :331-350
    match s.vals with
    | [] => .fault
    | cmpOff :: vs =>
      let s := if cmpOff ≠ 0 then
          s.code fun b => b.deletePrev.addForwardOp z.W fwCmp ((b.bytes[b.prev]?.getD 0).toNat + 6)
        else { s with vals := s.buf.prev :: vs }
      .ok ((s.code Buf.pushPrev).push z (tokOp s.tv))
  | .binopFirst, s => .ok ((s.code Buf.pushPrev).push z (tokOp s.tv))                                -- snek-parse.c:163-167
  | .binopSecond, s => s.pop fun op s => .ok (s.code (addRaw op []))                                 -- snek-parse.c:169-172
  | .setPush, s => .ok (s.code Buf.pushPrev)                                                         -- :406-408, 432-434, 540-542
  | .index, s => s.pop fun sl s =>                                                                   -- :411-423
    if sl ≠ 0 then
      (s.code Buf.pushPrev).pop fun stride s => s.pop fun stop s => s.pop fun start s =>
        .ok (s.code (addRaw 54 [UInt8.ofNat (start * 1 ||| stop * 2 ||| stride * 4)]))
    else .ok (s.code (addRaw 16 []))
  | .call, s => s.pop fun num s => .ok (s.code (addRaw 53 (leBytes z.W num)))                        -- :436-438
  | .optExpr, s => .ok ((s.push z 1).code Buf.pushPrev)                                              -- :471-474
  | .tuple, s => s.pop fun num s =>                                                                  -- :483-487 (`num` is signed)
    .ok (if num < 2 ^ (8 * z.W - 1) then s.code (addRaw 47 (leBytes z.W num)) else s)
  | .list, s => s.pop fun num s =>                                                                   -- :489-494
    if num ≥ 256 then .syntax else .ok (s.code (addRaw 46 (leBytes z.W num)))
  | .dict, s => s.pop fun num s => .ok (s.code (addRaw 48 (leBytes z.W num)))                        -- :502-506
  | .name, s => .ok (s.code (addRaw 49 (leBytes z.W (tokId s.tv))))                                  -- :509-511
  | .number, s => .ok (s.code fun b => match s.tv with | .number u => b.add z.W (numIns conv u) | _ => b)   -- :513-515
  | .string, s => .ok (s.code fun b => match s.tv with | .string o => addRaw 45 (leBytes z.W o) b | _ => b) -- :517-519
  | .stringCat, s => .ok (s.code fun b =>                                                            -- :523-527
      match s.tv with | .string o => addRaw 17 [] (addRaw 45 (leBytes z.W o) b.pushPrev) | _ => b)
  | .tupleP, s => s.pop fun num s => if num ≥ 256 then .syntax else .ok (s.push z (num + 1))         -- :544-550
  | .notTuple, s => .ok (s.push z (2 ^ (8 * z.W) - 1))                                               -- :552-555
  | .argName, s =>                                                                                   -- :572-588
    if (s.buf.bytes[s.buf.prev]?.getD 0).toNat ≠ 49 then .syntax
    else
      let id := rd s.buf.bytes z.W (s.buf.prev + 1)
      .ok (s.code fun b => (b.deletePrev.add z.W (numIns conv (intToF id))).pushPrev)
  | .argNamed, s => s.pop fun num s => .ok ((s.push z (num + 256)).code Buf.pushPrev)                -- :590-594
  | .argPos, s => s.pop fun num s =>                                                                 -- :596-604
    if num ≥ 256 then .syntax else .ok ((s.push z (num + 1)).code Buf.pushPrev)
  | .entPart, s => s.pop fun num s => .ok ((s.push z (num + 1)).code Buf.pushPrev)                   -- :623-631

/-- What the parser does next: go on, accept, syntax error, `parse_return_oom`, or an access outside of an array (with the state it
stops in). -/
inductive Res
  | next (stk : List Sym) (s : PSt)
  | done (s : PSt) | syntax (s : PSt) | oom (s : PSt) | fault (s : PSt)
  deriving DecidableEq, Repr

/-- One step; `P` is the number of symbols its stack holds. -/
def step (P : Nat) : List Sym → PSt → Res
  | [], s => .done s
  | .a x :: stk, s =>
    match act z conv x s with
    | .ok s => .next stk s
    | .syntax => .syntax s
    | .fault => .fault s
  | .t x :: stk, s =>
    if s.la then
      if x.is (hd s.ts).1 then .next stk { s with ts := s.ts.tail, la := false } else .syntax s
    else .next (.t x :: stk) s.look
  | .n x :: stk, s =>
    if s.la then
      match prod x (hd s.ts).1 with
      | some r => if (r ++ stk).length ≤ P then .next (r ++ stk) s else .oom s
      | none => .syntax s
    else .next (.n x :: stk) s.look

/-- The parser, for a number of steps; `none`: it has not stopped yet. -/
def run (P : Nat) : Nat → List Sym → PSt → Option Res
  | 0, _, _ => none
  | k+1, stk, s =>
    match step z conv P stk s with
    | .next stk s => run P k stk s
    | r => some r

/-- The state in which `snek_parse` calls the parser, snek-parse.c:221-241. -/
def PSt.init (ts : List LT) : PSt := ⟨[], Buf.empty, 0, [], 0, [], ts, false, .eof, 0⟩

/-- `parse(NULL)` on the tokens of a file, snek-parse.c:242. -/
def parse (P k : Nat) (ts : List LT) : Option Res := run z conv P k [.n .start] (PSt.init ts)

end Snek.Pda
