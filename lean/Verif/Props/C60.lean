import Verif.Proofs.StmtComplete
/-!
# C60: the statements of a program

`Forms (.prog cs) t` (Spec/Program): the tokens `t`, with their lines, are the commands `cs` one after the other and the end of the
input. `start` is the parser (Model/ParseStmt).
-/
namespace Snek.Parse
open Snek.Vm Snek.Lang Spec.Syntax Spec.Program

/-- Every well-formed program is accepted, and read as what it is. -/
theorem C60_reads {cs t} (f : Forms (.prog cs) t) : ∃ k0, ∀ k, k0 ≤ k → start k t = some cs := readsS f

/-- Nothing else is accepted. -/
theorem C60_only {k ts cs} (h : start k ts = some cs) : Forms (.prog cs) ts := start_sound h

/-- No token sequence is two different programs: in particular every `else` belongs to exactly one statement. -/
theorem C60_unique {cs cs' t} (h : Forms (.prog cs) t) (h' : Forms (.prog cs') t) : cs = cs' :=
  Ev.det (C60_reads h) (C60_reads h')

/-- A statement is read as itself whatever follows it, except `else` and `elif`; what follows is left alone. -/
theorem C60_statement {s t} (f : Forms (.stat s) t) (rest : List LT)
    (hr : ∀ h ∈ rest.head?, h.1 ≠ .kw .else_ ∧ h.1 ≠ .kw .elif) :
    ∃ k0, ∀ k, k0 ≤ k → stat k (t ++ rest) = some (s, rest) :=
  readsS f rest fun h n r e => hr (h, n) (by rw [e]; rfl)

/-- A block is read as itself whatever follows it. -/
theorem C60_block {s t} (f : Forms (.suite s) t) (rest : List LT) :
    ∃ k0, ∀ k, k0 ≤ k → suite k (t ++ rest) = some (s, rest) := readsS f rest

/-! ## Blocks nest -/

/-- Depth of nesting after the tokens, starting from `d`; none when a block ends that was not begun. -/
def depth : Nat → List T → Option Nat
  | d, [] => some d
  | d, .indent _ :: ts => depth (d+1) ts
  | 0, .exdent _ :: _ => none
  | d+1, .exdent _ :: ts => depth d ts
  | d, _ :: ts => depth d ts

theorem depth_append (t u : List T) (d) : depth d (t ++ u) = (depth d t).bind fun d => depth d u := by
  induction t generalizing d with
  | nil => rfl
  | cons a t ih => cases a <;> first | exact ih _ | skip
                   cases d
                   · rfl
                   · exact ih _

theorem writes_flat {c t} (w : Writes c t) (d) : depth d t = some d := by
  induction w
  case bin o _ _ _ _ _ _ _ _ _ => simp_all [depth_append, depth]
  all_goals first
    | rfl
    | (simp_all [depth_append, depth]; done)
    | skip
  case chain1 hr _ _ _ _ => cases hr <;> simp_all [depth_append, depth]
  case cmp hr _ _ _ _ _ => cases hr <;> simp_all [depth_append, depth]

theorem exp_flat {l x} {t : List LT} (w : Exp l x t) (d) : depth d (t.map Prod.fst) = some d := writes_flat w d

theorem forms_flat {c t} (f : Forms c t) (d) : depth d (t.map Prod.fst) = some d := by
  induction f generalizing d
  case dels1 w _ => exact exp_flat w d
  case dels w _ _ ih => simp [depth_append, depth, exp_flat w, ih]
  case ret w => exact exp_flat w d
  case assert w => exact exp_flat w d
  case assign w w' _ => simp [depth_append, depth, exp_flat w, exp_flat w']
  case expr w => exact exp_flat w d
  case simple ih =>
    have := ih d
    simp [depth_append, depth] at this ⊢
    rw [← List.cons_append, depth_append, this]
    rfl
  case ifs w _ _ ih ih' => simp [depth_append, depth, exp_flat w, ih, ih']
  case whil w _ _ ih ih' => simp [depth_append, depth, exp_flat w, ih, ih']
  case forIn w _ _ ih ih' => simp [depth_append, depth, exp_flat w, ih, ih']
  case forRange w _ _ _ ih ih' => simp [depth_append, depth, writes_flat w, ih, ih']
  case elif w _ _ ih ih' => simp [depth_append, depth, exp_flat w, ih, ih']
  case named1 w => simp [depth_append, depth, exp_flat w]
  case named w _ ih => simp [depth_append, depth, exp_flat w, ih]
  all_goals simp_all [depth_append, depth]

/-- In every accepted program the blocks are properly nested, and all of them are closed at the end. -/
theorem C60_nested {k ts cs} (h : start k ts = some cs) : depth 0 (ts.map Prod.fst) = some 0 := forms_flat (C60_only h) 0

/-! ## Lines -/

/-- The line mark at the beginning of a statement. -/
def firstLine : Stmt → Option Nat
  | .seq (.line n) _ => some n
  | _ => none

/-- The mark of every statement that is not an empty line is the line its first token is on. -/
theorem C60_line {k s h n} {t rest : List LT} (hs : stat k ((h, n) :: t) = some (s, rest)) (hn : h ≠ .nl) : firstLine s = some n := by
  obtain ⟨u, e, f⟩ := (soundS k).stat _ _ _ hs
  cases f
  case blank => cases e; exact absurd rfl hn
  case stat f => cases f; cases e; rfl
  all_goals (cases e; rfl)

section example_
/-- `if a:` / `  b` / `elif c: d` / `else:` / `  pass` and then `x += 1; y`. -/
example : start 60
    [(.kw .if_, 1), (.name 1, 1), (.colon, 1), (.nl, 1), (.indent 0, 2), (.name 2, 2), (.nl, 2), (.exdent 0, 3),
     (.kw .elif, 3), (.name 3, 3), (.colon, 3), (.name 4, 3), (.nl, 3),
     (.kw .else_, 4), (.colon, 4), (.nl, 4), (.indent 0, 5), (.kw .pass, 5), (.nl, 5), (.exdent 0, 6),
     (.name 5, 6), (.assign (.aug .plus), 6), (.number 0x3f800000#32, 6), (.semi, 6), (.name 6, 6), (.nl, 6), (.eof, 7)]
    = some [.stat (.seq (.line 1) (.ifs (.name 1) (.seq (.line 2) (.expr (.name 2)))
        (.elif 3 (.name 3) (.seq (.line 3) (.expr (.name 4))) (.els (.seq (.line 5) .skip))))),
      .stat (.seq (.line 6) (.seq (.assign (.aug .plus) 5 (.num 0x3f800000#32)) (.expr (.name 6))))] := by with_unfolding_all rfl
/-- `def f(a, b=1): return a` -/
example : start 60
    [(.kw .def_, 1), (.name 1, 1), (.op, 1), (.name 2, 1), (.comma, 1), (.name 3, 1), (.assign .plain, 1), (.number 0x3f800000#32, 1),
     (.cp, 1), (.colon, 1), (.kw .return_, 1), (.name 2, 1), (.nl, 1), (.eof, 2)]
    = some [.fn 1 [2, 3] ⟨.cons 3 (.num 0x3f800000#32) .nil, .seq (.line 1) (.ret (.some (.name 2)))⟩] := by with_unfolding_all rfl
end example_

end Snek.Parse
