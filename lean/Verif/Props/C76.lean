import Verif.Proofs.PdaCmd
import Verif.Proofs.StmtComplete
/-!
# C76: the parser's stacks

`parse z conv P n ts` (Model/Pda) is `n` steps of the parser snek runs: the table-driven one that lola generates from snek-gram.ll, with
its actions, a stack of `P` symbols, a stack of `z.V` values and a list of `z.F` formals. `Forms (.prog cs) ts` (Spec/Program): the tokens
`ts` are the commands `cs`. `codeOf` (Spec/Depth): the code of a command as Model/Compile gives it, which is the code C58 and C74 show to
do what the command says. `needCmd`: how many values the actions of a command need at a time.
-/
namespace Snek.Pda
open Snek.Vm Snek.Lang Snek.Lex Snek.Parse Spec.Syntax Spec.Program

/-- Whatever the size of the parser's stack, a program whose commands need no more values and formals than there is room for is
translated exactly, or the parser stops with "out of memory" having passed on the first commands of the program, translated exactly. -/
theorem C76_exact_or_memory_partial {z : Sizes} {conv : BitVec 32 → BitVec 8} {ts : List LT} {cs : List Cmd}
    (hp : Forms (.prog cs) ts)
    (hW : 2 ≤ z.W) (hn : ∀ t ∈ ts, ∀ x, t.1 = .name x → x < 256 ^ z.W)
    (hr : ∀ c ∈ cs, needCmd c ≤ z.V ∧ formalsOf c ≤ z.F) (P : Nat) :
    ∃ n s, (parse z conv P n ts = some (.done s) ∧ s.out = cs.flatMap (codeOf z.W conv) ∧ s.vals = []) ∨
      (parse z conv P n ts = some (.oom s) ∧ s.out <+: cs.flatMap (codeOf z.W conv)) := by
  obtain ⟨k, hk⟩ := readsS hp
  obtain ⟨s', hv, ho, R⟩ := ok_start (conv := conv) hW (hk k (Nat.le_refl k)) hn (PSt.init ts) rfl
    (fun c hc => ⟨by show 0 + _ ≤ _; rw [Nat.zero_add]; exact (hr c hc).1, (hr c hc).2⟩)
  have R' : Reach z conv [.n .start] (PSt.init ts) [] s' := .look rfl (fun _ => nofun) R
  obtain ⟨n, h | ⟨s1, h, h1⟩⟩ := R'.limited P
  · exact ⟨1 + n, s', .inl ⟨(h 1).trans rfl, ho, hv⟩⟩
  · exact ⟨0 + n, s1, .inr ⟨h 0, by rw [ho] at h1; exact h1⟩⟩

/-- With a stack large enough for the program it is translated, to its last command. -/
theorem C76_exact_partial {z : Sizes} {conv : BitVec 32 → BitVec 8} {ts : List LT} {cs : List Cmd} (hp : Forms (.prog cs) ts)
    (hW : 2 ≤ z.W) (hn : ∀ t ∈ ts, ∀ x, t.1 = .name x → x < 256 ^ z.W)
    (hr : ∀ c ∈ cs, needCmd c ≤ z.V ∧ formalsOf c ≤ z.F) :
    ∃ P0, ∀ P, P0 ≤ P → ∃ n s, parse z conv P n ts = some (.done s) ∧ s.out = cs.flatMap (codeOf z.W conv) ∧ s.vals = [] := by
  obtain ⟨k, hk⟩ := readsS hp
  obtain ⟨s', hv, ho, R⟩ := ok_start (conv := conv) hW (hk k (Nat.le_refl k)) hn (PSt.init ts) rfl
    (fun c hc => ⟨by show 0 + _ ≤ _; rw [Nat.zero_add]; exact (hr c hc).1, (hr c hc).2⟩)
  have R' : Reach z conv [.n .start] (PSt.init ts) [] s' := .look rfl (fun _ => nofun) R
  obtain ⟨n, P0, h⟩ := R'.run
  exact ⟨P0, fun P hP => ⟨1 + n, s', (h P hP 1).trans rfl, ho, hv⟩⟩

/-! ## A program that meets the conditions -/

/-- `def f(a, b=1): return a < b <= c`, then `f(b, b=2)`, an `if` with an `elif` in a block, a `while` and an assignment to an item. -/
def demo : List LT :=
  [(.kw .def_, 1), (.name 1, 1), (.op, 1), (.name 2, 1), (.comma, 1), (.name 3, 1), (.assign .plain, 1), (.number 0x3f800000#32, 1), (.cp, 1),
   (.colon, 1), (.kw .return_, 1), (.name 2, 1), (.cmpop (.cmp .lt), 1), (.name 3, 1), (.cmpop (.cmp .le), 1), (.name 4, 1), (.nl, 1),
   (.name 1, 2), (.op, 2), (.name 3, 2), (.comma, 2), (.name 3, 2), (.assign .plain, 2), (.number 0x40000000#32, 2), (.cp, 2), (.nl, 2),
   (.kw .if_, 3), (.name 1, 3), (.colon, 3), (.nl, 3), (.indent 0, 4), (.name 2, 4), (.nl, 4), (.exdent 0, 5),
   (.kw .elif, 5), (.name 3, 5), (.colon, 5), (.name 4, 5), (.nl, 5),
   (.kw .while_, 6), (.name 1, 6), (.colon, 6), (.name 4, 6), (.os, 6), (.name 1, 6), (.cs, 6), (.assign (.aug .plus), 6), (.name 5, 6), (.nl, 6),
   (.eof, 7)]

/-- The commands of a program, when there are any. -/
def cmds (ts : List LT) : List Cmd := (start 100 ts).getD []

example : Forms (.prog (cmds demo)) demo ∧ (cmds demo).length = 4 ∧ (∀ c ∈ cmds demo, needCmd c ≤ 16 ∧ formalsOf c ≤ 10) ∧
    (∀ t ∈ demo, ∀ x, t.1 = .name x → x < 256 ^ 2) := by
  refine ⟨?_, by decide +kernel, by decide +kernel, ?_⟩
  · have h : (start 100 demo).isSome = true := by decide +kernel
    refine start_sound (k := 100) ?_
    unfold cmds
    cases e : start 100 demo with
    | none => rw [e] at h; cases h
    | some c => rfl
  · have h : demo.all (fun t => match t.1 with | .name x => x < 256 ^ 2 | _ => true) = true := by decide +kernel
    intro t ht x e
    have := List.all_eq_true.1 h t ht
    rw [e] at this
    simpa using this

/-! ## Programs that do not

The values an action pushes when the stack is full are lost (`_value_push` returns a flag no action looks at) and the pops that follow
find the wrong ones, in the end below the stack. VALUE_STACK_SIZE is 16 on the AVR boards and 127 elsewhere, PARSE_STACK_SIZE 128. -/

/-- Tokens, all of line 1. -/
def line1 (t : List T) : List LT := t.map fun x => (x, 1)

/-- `if x: pass`, then `elif x: pass` `n` times. -/
def elifs (n : Nat) : List LT :=
  line1 ([.kw .if_, .name 1, .colon, .kw .pass, .nl] ++ (List.replicate n [T.kw .elif, .name 1, .colon, .kw .pass, .nl]).flatten ++ [.eof])

/-- Whether the parser ends in an access outside of an array. -/
def faults : Option Res → Bool
  | some (.fault _) => true
  | _ => false

/-- With 8 `elif`s on a board with 16 values the parser reads `value_stack[-1]`; with 7 it does not. -/
theorem C76_violated_elif : (start 100 (elifs 8)).isSome = true ∧ faults (parse ⟨2, 16, 10⟩ (fun _ => 0) 128 500 (elifs 8)) = true ∧
    (cmds (elifs 7)).all (fun c => needCmd c ≤ 16) = true := by decide +kernel

/-- With 63 on a board with 127. -/
theorem C76_violated_elif_127 : (start 200 (elifs 63)).isSome = true ∧
    faults (parse ⟨2, 127, 10⟩ (fun _ => 0) 128 6000 (elifs 63)) = true := by decide +kernel

/-- A function that compares its argument and has `n` `elif`s, each returning something. -/
def picks (n : Nat) : List LT :=
  line1 ([.kw .def_, .name 1, .op, .name 2, .cp, .colon, .nl, .indent 0, .kw .if_, .name 2, .cmpop (.cmp .eq), .name 3, .colon, .nl, .indent 4,
    .kw .return_, .name 5, .nl, .exdent 4] ++
   (List.replicate n [T.kw .elif, .name 2, .cmpop (.cmp .eq), .name 3, .colon, .nl, .indent 4, .kw .return_, .name 5, .nl, .exdent 4]).flatten ++
   [.exdent 0, .eof])

/-- With 6 of them on a board with 16 values. -/
theorem C76_violated_function : (start 200 (picks 6)).isSome = true ∧
    faults (parse ⟨2, 16, 10⟩ (fun _ => 0) 128 3000 (picks 6)) = true := by decide +kernel

/-- Expressions meet the other limit first: a list in a list, eight deep, is refused. -/
example :
    let t : List LT := line1 (List.replicate 8 .os ++ List.replicate 8 .cs ++ [.nl, .eof])
    (start 300 t).isSome = true ∧ (match parse ⟨2, 16, 10⟩ (fun _ => 0) 128 3000 t with | some (.oom _) => true | _ => false) = true := by
  decide +kernel

end Snek.Pda
