import Verif.Props.C77
import Verif.Proofs.ScarceRes
/-!
# C91: memory runs out while a program is compiled

`parseM z conv g junk P n ts` (Model/Scarce) is `n` steps of the parser on the tokens `ts` when the `i`-th request for memory is granted if
`g i` and refused otherwise, and `junk` is what is found in memory nothing was written to; `some r`: it has stopped with the result `r`,
having made `r.st.asks` requests and passed on the code `r.st.s.out` for execution. `parse` (Model/Pda) is the parser that always gets its
memory. `Last`, `MOut.same`: Spec/Scarce. `Forms`, `codeOf`, `roomy`: as in C77.
-/
namespace Snek.Scarce
open Snek.Vm Snek.Lang Snek.Lex Snek.Parse Snek.Pda Spec.Syntax Spec.Program

/-! ## Lemmas -/

theorem fail_iff {z : Sizes} {conv : BitVec 32 → BitVec 8} {g : Nat → Bool} {junk : MSt → Nat → UInt8} {P n : Nat} {ts : List LT} {r : MOut}
    (h : parseM z conv g junk P n ts = some r) : r.st.fail = true ↔ ∃ i, i < r.st.asks ∧ g i = false :=
  (run_along n _ _ h).asks ⟨nofun, fun ⟨i, hi, _⟩ => absurd hi (Nat.not_lt_zero i)⟩

/-- A prefix of what commands were translated to is what the first of them were translated to. -/
theorem prefix_parts {α β : Type} (f : α → List β) (hf : ∀ a, (f a).length ≤ 1) : ∀ (parts : List α) (o : List β), o <+: parts.flatMap f →
    ∃ a b, parts = a ++ b ∧ o = a.flatMap f := by
  intro parts
  induction parts with
  | nil => intro o h; exact ⟨[], [], rfl, by simpa using h⟩
  | cons x parts ih =>
    intro o h
    rw [List.flatMap_cons] at h
    cases o with
    | nil => exact ⟨[], x :: parts, rfl, rfl⟩
    | cons y o =>
      have hx := hf x
      cases hfx : f x with
      | nil =>
        rw [hfx, List.nil_append] at h
        obtain ⟨a, b, e1, e2⟩ := ih _ h
        exact ⟨x :: a, b, by rw [e1]; rfl, by rw [List.flatMap_cons, hfx, List.nil_append]; exact e2⟩
      | cons u us =>
        rw [hfx] at h hx
        have : us = [] := by cases us with | nil => rfl | cons _ _ => simp at hx
        subst this
        rw [List.cons_append, List.nil_append, List.cons_prefix_cons] at h
        obtain ⟨rfl, h⟩ := h
        obtain ⟨a, b, e1, e2⟩ := ih _ h
        exact ⟨x :: a, b, by rw [e1]; rfl, by rw [List.flatMap_cons, hfx, e2]; rfl⟩

theorem codeOf_short (W : Nat) (conv : BitVec 32 → BitVec 8) (c : Cmd) : (codeOf W conv c).length ≤ 1 := by cases c <;> simp [codeOf]

/-! ## The property -/

/-- The parser stops, whatever the text is and whichever requests are refused. -/
theorem C91_stops (z : Sizes) (conv : BitVec 32 → BitVec 8) (g : Nat → Bool) (junk : MSt → Nat → UInt8) (P : Nat) (ts : List LT) :
    ∃ n r, parseM z conv g junk P n ts = some r := parseM_stops ts

/-- When no request was refused the result and the code passed on are those of the parser that always gets its memory. -/
theorem C91_enough {z : Sizes} {conv : BitVec 32 → BitVec 8} {g : Nat → Bool} {junk : MSt → Nat → UInt8} {P n : Nat} {ts : List LT} {r : MOut}
    (h : parseM z conv g junk P n ts = some r) (hl : r.st.lost = false) (hg : ∀ i, i < r.st.asks → g i = true) :
    ∃ q, parse z conv P n ts = some q ∧ r.same q := by
  rcases run_main n _ _ rfl (init_inv ts) h hl with ⟨_, q, a, b⟩ | ⟨a, _⟩
  · exact ⟨q, a, b⟩
  · obtain ⟨i, hi, h2⟩ := (fail_iff h).1 a
    rw [hg i hi] at h2
    cases h2

/-- When a request was refused the parser does not report success. -/
theorem C91_reported {z : Sizes} {conv : BitVec 32 → BitVec 8} {g : Nat → Bool} {junk : MSt → Nat → UInt8} {P n i : Nat} {ts : List LT} {r : MOut}
    (h : parseM z conv g junk P n ts = some r) (hl : r.st.lost = false) (hi : i < r.st.asks) (hg : g i = false) : ∀ m, r ≠ .done m := by
  rintro m rfl
  have hf := (fail_iff h).2 ⟨i, hi, hg⟩
  rcases run_main n _ _ rfl (init_inv ts) h hl with ⟨a, _⟩ | ⟨_, a, _⟩
  · rw [a] at hf; cases hf
  · cases a

/-- What has been passed on then is the code of commands the text begins with, each of them complete, and after them at most one thing more: a
statement of which only the line number is executed, or a function.

Missing: that the function is none. It is not so (`C91_violated_def`). -/
theorem C91_executed_partial {z : Sizes} {conv : BitVec 32 → BitVec 8} {g : Nat → Bool} {junk : MSt → Nat → UInt8} {P n N : Nat} {ts : List LT}
    {r : MOut} {q : Res} (hW : 2 ≤ z.W) (hn : ∀ t ∈ ts, ∀ x, t.1 = .name x → x < 256 ^ z.W)
    (h : parseM z conv g junk P n ts = some r) (hl : r.st.lost = false)
    (hq : parse z conv P N ts = some q) (hr : roomy z conv P N [.n .start] (PSt.init ts) = true) :
    ∃ (parts : List (Cmd × List LT)) (rest : List LT) (l : List Code),
      ts = parts.flatMap Prod.snd ++ rest ∧ (∀ p ∈ parts, Forms (.cmd p.1) p.2) ∧
      r.st.s.out = (parts.flatMap fun p => codeOf z.W conv p.1) ++ l ∧ Last z.W l := by
  obtain ⟨parts, rest, a, b, c⟩ := C77_only_commands hW hn hq hr
  have key : ∀ o, o <+: q.st.out → ∃ (parts : List (Cmd × List LT)) (rest : List LT),
      ts = parts.flatMap Prod.snd ++ rest ∧ (∀ p ∈ parts, Forms (.cmd p.1) p.2) ∧ o = parts.flatMap fun p => codeOf z.W conv p.1 := by
    intro o ho
    rw [c] at ho
    obtain ⟨u, v, e1, e2⟩ := prefix_parts (fun p : Cmd × List LT => codeOf z.W conv p.1) (fun p => codeOf_short ..) parts o ho
    refine ⟨u, v.flatMap Prod.snd ++ rest, ?_, fun p hp => b p (by rw [e1]; exact List.mem_append_left _ hp), e2⟩
    rw [a, e1, List.flatMap_append, List.append_assoc]
  rcases run_main n _ _ rfl (init_inv ts) h hl with ⟨_, q2, e1, e2⟩ | ⟨_, _, o, l, e1, e2, e3⟩
  · obtain ⟨parts, rest, x1, x2, x3⟩ := key r.st.s.out (by
      have := run_out (z := z) (conv := conv) (P := P) n _ _ e1
      have hs : ∀ {N M : Nat} {k : List Sym} {s : PSt} {q q2}, Pda.run z conv P N k s = some q → Pda.run z conv P M k s = some q2 → q = q2 := by
        intro N
        induction N with
        | zero => intro M k s q q2 h1 _; cases h1
        | succ N ih =>
          intro M k s q q2 h1 h2
          cases M with
          | zero => cases h2
          | succ M =>
            cases e : Pda.step z conv P k s with
            | next k1 s1 => rw [run_next e] at h1 h2; exact ih h1 h2
            | _ => rw [run_stop e nofun] at h1 h2; rw [h1] at h2; exact Option.some.inj h2
      have : q2 = q := hs e1 hq
      subst this
      cases r with
      | next _ _ => exact e2.elim
      | error _ => exact e2.elim
      | done m => have e2 : q2 = .done m.s := e2; rw [e2]; exact List.prefix_rfl
      | «syntax» m => have e2 : q2 = .syntax m.s := e2; rw [e2]; exact List.prefix_rfl
      | oom m => have e2 : q2 = .oom m.s := e2; rw [e2]; exact List.prefix_rfl
      | fault m => have e2 : q2 = .fault m.s := e2; rw [e2]; exact List.prefix_rfl)
    exact ⟨parts, rest, [], x1, x2, by rw [List.append_nil]; exact x3, .nothing⟩
  · obtain ⟨parts, rest, x1, x2, x3⟩ := key o (e3 N q hq)
    exact ⟨parts, rest, l, x1, x2, by rw [e1, x3], e2⟩

/-! ## Examples -/

/-- What the runs below are told by: how the parser stopped, the requests, what it passed on, whether a byte was written outside of the block
and whether a value was lost. -/
def shown (o : Option MOut) : Nat × Nat × List Code × Bool × Bool :=
  match o with
  | some r => ((match r with | .next .. => 0 | .done _ => 1 | .syntax _ => 2 | .oom _ => 3 | .fault _ => 4 | .error _ => 5),
      r.st.asks, r.st.s.out, r.st.stray, r.st.lost)
  | none => (9, 0, [], false, false)

/-- `a = b` `n` times, separated by semicolons. -/
def copies (n : Nat) : List LT := (List.replicate n ([(.name 10, 1), (.assign .plain, 1), (.name 11, 1)] : List LT)).intersperse [(.semi, 1)] |>.flatten

/-- Two statements; `x` and 6 copies. -/
def twoLines : List LT := [(.name 12, 1), (.nl, 1)] ++ copies 6 ++ [(.nl, 1), (.eof, 2)]

/-- All requests granted: both are passed on, the second of them 39 bytes long. -/
example : shown (parseM ⟨2, 16, 10⟩ (fun _ => 0) (fun _ => true) (fun _ _ => 0) 128 1000 twoLines) =
    (1, 5, [.stat [66, 1, 0, 49, 12, 0], .stat ([66, 1, 0] ++ (List.replicate 6 [49, 11, 0, 41, 10, 0]).flatten)], false, false) ∧
    roomy ⟨2, 16, 10⟩ (fun _ => 0) 128 1000 [.n .start] (PSt.init twoLines) = true ∧
    twoLines.all (fun t => match t.1 with | .name x => x < 256 ^ 2 | _ => true) = true := by decide +kernel

/-- The second block for the second statement is refused, when its last assignment is compiled: it is passed on, 31 bytes long, and nothing of
it is executed but the line number. -/
def lateLine : List LT := [(.name 12, 1), (.nl, 1)] ++ copies 5 ++ [(.nl, 1), (.eof, 2)]

example : shown (parseM ⟨2, 16, 10⟩ (fun _ => 0) (fun i => i != 3) (fun _ _ => 0) 128 1000 lateLine) =
    (5, 5, [.stat [66, 1, 0, 49, 12, 0], .stat ([66, 1, 0] ++ (List.replicate 4 [49, 11, 0, 41, 10, 0]).flatten ++ [49, 11, 0, 41])], false, false) ∧
    ranAborted 2 ([66, 1, 0] ++ (List.replicate 4 [49, 11, 0, 41, 10, 0]).flatten ++ [49, 11, 0, 41]) = [.line 1] ∧
    roomy ⟨2, 16, 10⟩ (fun _ => 0) 128 1000 [.n .start] (PSt.init lateLine) = true := by decide +kernel

/-- `def f(): a = b; a = b; a = b; a = b; a = b` -/
def longDef : List LT :=
  [(.kw .def_, 1), (.name 9, 1), (.op, 1), (.cp, 1), (.colon, 1)] ++ copies 5 ++ [(.nl, 1), (.eof, 2)]

/-- The second block is refused while the function is compiled, and its code is granted: the error is reported, and a function is defined
whose last assignment is to the variable whose number is the following opcode and a byte that is not part of the code. -/
theorem C91_violated_def :
    shown (parseM ⟨2, 16, 10⟩ (fun _ => 0) (fun i => i != 1) (fun _ _ => 0) 128 1000 longDef) =
      (5, 4, [.fn 9 [] 0 ([66, 1, 0] ++ (List.replicate 4 [49, 11, 0, 41, 10, 0]).flatten ++ [49, 11, 0, 41, 67])], false, false) ∧
    shown (parseM ⟨2, 16, 10⟩ (fun _ => 0) (fun _ => true) (fun _ _ => 0) 128 1000 longDef) =
      (1, 4, [.fn 9 [] 0 ([66, 1, 0] ++ (List.replicate 5 [49, 11, 0, 41, 10, 0]).flatten ++ [67])], false, false) ∧
    roomy ⟨2, 16, 10⟩ (fun _ => 0) 128 1000 [.n .start] (PSt.init longDef) = true := by decide +kernel

/-- `f(a + b + c + d + e + g + h)` -/
def sumCall : List LT :=
  [(.name 9, 1), (.op, 1)] ++ (((List.range 7).map fun i => ([(.name (20 + i), 1)] : List LT)).intersperse [(.bin .plus, 1)]).flatten ++
    [(.cp, 1), (.nl, 1), (.eof, 2)]

/-- The block is full when the last addition is compiled and a longer one is refused: to mark the argument as pushed, a bit is set in the byte
behind the block. -/
theorem C91_violated_write :
    shown (parseM ⟨2, 16, 10⟩ (fun _ => 0) (fun i => i != 1) (fun _ _ => 0) 128 1000 sumCall) = (5, 3, [], true, false) ∧
    shown (parseM ⟨2, 16, 10⟩ (fun _ => 0) (fun _ => true) (fun _ _ => 0) 128 1000 sumCall) =
      (1, 3, [.stat [66, 1, 0, 177, 9, 0, 177, 20, 0, 49, 21, 0, 145, 49, 22, 0, 145, 49, 23, 0, 145, 49, 24, 0, 145, 49, 25, 0, 145, 49, 26, 0,
        145, 53, 1, 0]], false, false) := by decide +kernel

end Snek.Scarce
