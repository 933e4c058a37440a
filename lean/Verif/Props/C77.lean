import Verif.Proofs.PdaEnough
import Verif.Proofs.StmtComplete
/-!
# C77: erroneous programs

`parse z conv P n ts` (Model/Pda) is `n` steps of the parser snek runs, with a stack of `P` symbols, a stack of `z.V` values and a list of
`z.F` formals; `some r`: it has stopped with the result `r`, having passed on the code `r.st.out` for execution. `Forms (.cmd c) t`
(Spec/Program): the tokens `t` are the command `c`. `codeOf` (Spec/Depth): its code. `roomy` (Spec/Room): no value has been lost for want
of room (what happens otherwise is C76's subject).
-/
namespace Snek.Pda
open Snek.Vm Snek.Lang Snek.Lex Snek.Parse Spec.Syntax Spec.Program

/-! ## Lemmas -/

theorem writes_noeof {c t} (w : Writes c t) : T.eof ∉ t := by
  induction w
  all_goals first | (simp_all; done) | skip
  case chain1 hr _ _ _ _ => cases hr <;> simp_all
  case cmp hr _ _ _ _ _ => cases hr <;> simp_all

theorem exp_noeof {l x} {t : List LT} (w : Exp l x t) : ∀ u ∈ t, u.1 ≠ .eof := fun u hu e =>
  writes_noeof w (List.mem_map.2 ⟨u, hu, e⟩)

theorem acts_noeof {c} {t : List LT} (w : Writes c (t.map Prod.fst)) : ∀ u ∈ t, u.1 ≠ .eof := fun u hu e =>
  writes_noeof w (List.mem_map.2 ⟨u, hu, e⟩)

theorem forms_noeof {c t} (f : Forms c t) : (∀ cs, c ≠ .prog cs) → ∀ u ∈ t, u.1 ≠ .eof := by
  induction f
  all_goals intro hc u hu
  all_goals first | exact absurd rfl (hc _) | skip
  all_goals grind [exp_noeof, acts_noeof]

/-- More than any command of a program needs. -/
def need (cs : List Cmd) : Nat := (cs.map fun c => needCmd c + formalsOf c).sum

theorem need_le {c : Cmd} {cs : List Cmd} (h : c ∈ cs) : needCmd c ≤ need cs ∧ formalsOf c ≤ need cs := by
  induction cs with
  | nil => cases h
  | cons d cs ih =>
    unfold need
    rw [List.map_cons, List.sum_cons]
    rcases List.mem_cons.1 h with rfl | h
    · omega
    · obtain ⟨a, b⟩ := ih h
      unfold need at a b
      omega

theorem run_ne_next {z : Sizes} {conv : BitVec 32 → BitVec 8} {P : Nat} : ∀ {n : Nat} {k : List Sym} {s : PSt} {k1 s1},
    Pda.run z conv P n k s ≠ some (.next k1 s1)
  | 0, _, _, _, _, h => by cases h
  | n+1, k, s, k1, s1, h => by
    cases e : step z conv P k s with
    | next k2 s2 => rw [run_next e] at h; exact run_ne_next h
    | done _ => rw [run_stop e nofun] at h; cases h
    | «syntax» _ => rw [run_stop e nofun] at h; cases h
    | oom _ => rw [run_stop e nofun] at h; cases h
    | fault _ => rw [run_stop e nofun] at h; cases h

/-! ## The property -/

/-- The parser stops, whatever the text is. -/
theorem C77_stops (z : Sizes) (conv : BitVec 32 → BitVec 8) (P : Nat) (ts : List LT) : ∃ n r, parse z conv P n ts = some r :=
  parse_stops ts

/-- However it stops: what it has passed on is the code of commands the text begins with, each of them complete. Nothing else is executed,
in particular no part of a command that has an error in it. -/
theorem C77_only_commands {z : Sizes} {conv : BitVec 32 → BitVec 8} {P n : Nat} {ts : List LT} {r : Res}
    (hW : 2 ≤ z.W) (hn : ∀ t ∈ ts, ∀ x, t.1 = .name x → x < 256 ^ z.W)
    (h : parse z conv P n ts = some r) (hr : roomy z conv P n [.n .start] (PSt.init ts) = true) :
    ∃ (parts : List (Cmd × List LT)) (rest : List LT),
      ts = parts.flatMap Prod.snd ++ rest ∧ (∀ p ∈ parts, Forms (.cmd p.1) p.2) ∧
      r.st.out = parts.flatMap fun p => codeOf z.W conv p.1 := by
  obtain ⟨parts, rest, a, b, c, _⟩ := parse_passed hW h hr hn
  exact ⟨parts, rest, a, b, c⟩

/-- It reports success only when the commands make up the whole text, up to its end. -/
theorem C77_success {z : Sizes} {conv : BitVec 32 → BitVec 8} {P n : Nat} {ts : List LT} {s : PSt}
    (hW : 2 ≤ z.W) (hn : ∀ t ∈ ts, ∀ x, t.1 = .name x → x < 256 ^ z.W)
    (h : parse z conv P n ts = some (.done s)) (hr : roomy z conv P n [.n .start] (PSt.init ts) = true) :
    ∃ (parts : List (Cmd × List LT)) (rest : List LT),
      ts = parts.flatMap Prod.snd ++ rest ∧ (∀ p ∈ parts, Forms (.cmd p.1) p.2) ∧
      s.out = (parts.flatMap fun p => codeOf z.W conv p.1) ∧ ∀ t ∈ rest.head?, t.1 = .eof := by
  obtain ⟨parts, rest, a, b, c, d, _⟩ := parse_passed hW h hr hn
  refine ⟨parts, rest, a, b, c, fun t ht => ?_⟩
  have := d s rfl
  cases rest with
  | nil => cases ht
  | cons u v => cases ht; exact this

/-- It reports a syntax error only where no command begins: all commands before have been passed on, and the rest of the text is not at
its end and does not begin with a command (followed by anything but `else` or `elif`, which would belong to it). -/
theorem C77_error {z : Sizes} {conv : BitVec 32 → BitVec 8} {P n : Nat} {ts : List LT} {s : PSt}
    (hW : 2 ≤ z.W) (hn : ∀ t ∈ ts, ∀ x, t.1 = .name x → x < 256 ^ z.W)
    (h : parse z conv P n ts = some (.syntax s)) (hr : roomy z conv P n [.n .start] (PSt.init ts) = true) :
    ∃ (parts : List (Cmd × List LT)) (rest : List LT),
      ts = parts.flatMap Prod.snd ++ rest ∧ (∀ p ∈ parts, Forms (.cmd p.1) p.2) ∧
      s.out = (parts.flatMap fun p => codeOf z.W conv p.1) ∧ rest ≠ [] ∧ (∀ t ∈ rest.head?, t.1 ≠ .eof) ∧
      ∀ c t u, rest = t ++ u → (∀ h ∈ u.head?, h.1 ≠ .kw .else_ ∧ h.1 ≠ .kw .elif) → ¬ Forms (.cmd c) t := by
  obtain ⟨parts, rest, a, b, c, _, d⟩ := parse_passed hW h hr hn
  obtain ⟨d1, d2⟩ := d s rfl
  refine ⟨parts, rest, a, b, c, ?_, ?_, ?_⟩
  · rintro rfl
    exact d1 rfl
  · intro t ht
    cases rest with
    | nil => cases ht
    | cons u v => cases ht; exact d1
  · intro c t u e hu f
    subst e
    obtain ⟨k, hk⟩ := readsS f u fun h n r e => hu (h, n) (by rw [e]; rfl)
    have := (d2 k).symm.trans (hk k (Nat.le_refl k))
    cases this

/-- It reads outside of an array only when a list of formals is longer than the machine allows, never from an empty value stack. -/
theorem C77_memory {z : Sizes} {conv : BitVec 32 → BitVec 8} {P n : Nat} {ts : List LT} {s : PSt}
    (h : parse z conv P n ts = some (.fault s)) (hr : roomy z conv P n [.n .start] (PSt.init ts) = true) :
    z.F ≤ s.formals.length := parse_safe h hr

/-- For every text there are sizes from which on nothing is lost for want of room, and it is accepted or refused: accepted exactly when it
is a program. -/
theorem C77_decides {W : Nat} (conv : BitVec 32 → BitVec 8) (hW : 2 ≤ W) {ts : List LT}
    (hn : ∀ t ∈ ts, ∀ x, t.1 = .name x → x < 256 ^ W) {u l} (he : ts = u ++ [(.eof, l)]) (hu : ∀ t ∈ u, t.1 ≠ .eof) :
    ∃ V0 F0 P0, ∀ V F P, V0 ≤ V → F0 ≤ F → P0 ≤ P → ∃ n s,
      (parse ⟨W, V, F⟩ conv P n ts = some (.done s) ∧ ∃ cs, Forms (.prog cs) ts ∧ s.out = cs.flatMap (codeOf W conv)) ∨
      (parse ⟨W, V, F⟩ conv P n ts = some (.syntax s) ∧ ¬ ∃ cs, Forms (.prog cs) ts) := by
  obtain ⟨V0, F0, P0, n, H⟩ := fits (conv := conv) W [.n .start] (PSt.init ts) rfl
  refine ⟨V0, F0, P0, fun V F P hV hF hP => ?_⟩
  obtain ⟨r, h, hr, ho, hf⟩ := H V F P hV hF hP
  cases r with
  | done s =>
    refine ⟨n, s, .inl ⟨h, ?_⟩⟩
    obtain ⟨parts, rest, a, b, c, d⟩ := C77_success (z := ⟨W, V, F⟩) hW hn h hr
    refine ⟨parts.map Prod.fst, ?_, by rw [c, List.flatMap_map]⟩
    have key : ∀ (parts : List (Cmd × List LT)) (u : List LT), (∀ t ∈ u, t.1 ≠ .eof) → u ++ [(.eof, l)] = parts.flatMap Prod.snd ++ rest →
        (∀ p ∈ parts, Forms (.cmd p.1) p.2) → Forms (.prog (parts.map Prod.fst)) (u ++ [(.eof, l)]) := by
      intro parts
      induction parts with
      | nil =>
        intro u hu e _
        cases u with
        | nil => exact .done l
        | cons t u =>
          rw [List.flatMap_nil, List.nil_append] at e
          rw [← e] at d
          exact absurd (d t rfl) (hu t List.mem_cons_self)
      | cons p parts ih =>
        intro u hu e hp
        rw [List.flatMap_cons, List.append_assoc] at e
        rw [List.append_eq_append_iff] at e
        rcases e with ⟨w, e1, e2⟩ | ⟨w, e1, e2⟩
        · have hm := forms_noeof (hp p List.mem_cons_self) nofun
          cases w with
          | nil =>
            rw [List.append_nil] at e1
            rw [List.nil_append] at e2
            rw [List.map_cons, ← e1]
            exact .more (hp p List.mem_cons_self) (ih [] nofun e2 (fun q hq => hp q (List.mem_cons_of_mem _ hq)))
          | cons t w =>
            rw [List.cons_append] at e2
            have e3 : t = (.eof, l) := by injection e2 with e3 _; exact e3.symm
            exact absurd (congrArg Prod.fst e3) (hm t (by rw [e1]; simp))
        · subst e1
          rw [List.append_assoc, List.map_cons]
          exact .more (hp p List.mem_cons_self) (ih w (fun t ht => hu t (List.mem_append_right _ ht)) e2.symm (fun q hq => hp q (List.mem_cons_of_mem _ hq)))
    subst he
    exact key parts u hu a b
  | «syntax» s =>
    refine ⟨n, s, .inr ⟨h, fun ⟨cs, f⟩ => ?_⟩⟩
    rcases iso (q := [.n .start]) (r := []) h hr with ⟨m, s1, _, _, _, h2, _⟩ | ⟨q', s1, T, hq, hs, _, hv⟩
    · cases m with
      | zero => cases h2
      | succ m => rw [run_stop (r := .done s1) rfl nofun] at h2; cases h2
    · obtain ⟨k, hk⟩ := readsS f
      obtain ⟨s2, _, _, R⟩ := ok_start (conv := conv) (z := ⟨W, max V (need cs), max F (need cs)⟩) hW (hk k (Nat.le_refl k)) hn (PSt.init ts) rfl
        (fun c hc => by
          obtain ⟨a, b⟩ := need_le hc
          exact ⟨by show 0 + needCmd c ≤ max V _; omega, by show formalsOf c ≤ max F _; omega⟩)
      exact T.err (.look rfl nofun R) [] hs hq rfl rfl (Nat.le_max_left ..) (Nat.le_max_left ..) hv
  | oom s => exact absurd rfl (ho s)
  | fault s => exact absurd (C77_memory (z := ⟨W, V, F⟩) h hr) (Nat.not_le.2 (hf s rfl))
  | next k s => exact absurd h run_ne_next

/-! ## Texts that meet the conditions -/

/-- `x = 1`, then `def f(a): return a`, then `if x: y = x +` with nothing after the `+`. -/
def broken : List LT :=
  [(.name 1, 1), (.assign .plain, 1), (.number 0x3f800000#32, 1), (.nl, 1),
   (.kw .def_, 2), (.name 2, 2), (.op, 2), (.name 3, 2), (.cp, 2), (.colon, 2), (.kw .return_, 2), (.name 3, 2), (.nl, 2),
   (.kw .if_, 3), (.name 1, 3), (.colon, 3), (.name 4, 3), (.assign .plain, 3), (.name 1, 3), (.bin .plus, 3), (.nl, 3), (.eof, 4)]

/-- How the parser stopped and how much it had passed on. -/
def outcome : Option Res → Nat × Nat
  | some (.done s) => (1, s.out.length)
  | some (.syntax s) => (2, s.out.length)
  | some (.oom s) => (3, s.out.length)
  | some (.fault s) => (4, s.out.length)
  | _ => (0, 0)

/-- The sizes of an AVR board: the error is found when two commands have been passed on, and no value is lost. -/
example : outcome (parse ⟨2, 16, 10⟩ (fun _ => 0) 128 1000 broken) = (2, 2) ∧
    roomy ⟨2, 16, 10⟩ (fun _ => 0) 128 1000 [.n .start] (PSt.init broken) = true ∧
    broken.all (fun t => match t.1 with | .name x => x < 256 ^ 2 | _ => true) = true := by decide +kernel

/-- Without the third command it is a program, and all of it is passed on. -/
example : outcome (parse ⟨2, 16, 10⟩ (fun _ => 0) 128 1000 (broken.take 13 ++ [(.eof, 3)])) = (1, 2) ∧
    roomy ⟨2, 16, 10⟩ (fun _ => 0) 128 1000 [.n .start] (PSt.init (broken.take 13 ++ [(.eof, 3)])) = true := by decide +kernel

/-- With a small stack the parser gives up in the first command, with nothing passed on. -/
example : outcome (parse ⟨2, 16, 10⟩ (fun _ => 0) 9 1000 broken) = (3, 0) := by decide +kernel

/-- A list of formals that is too long. -/
def manyFormals : List LT :=
  [(.kw .def_, 1), (.name 2, 1), (.op, 1)] ++ (List.range 11).flatMap (fun i => [(.name (3 + i), 1), (.comma, 1)]) ++
   [(.name 20, 1), (.cp, 1), (.colon, 1), (.kw .pass, 1), (.nl, 1), (.eof, 2)]

example : outcome (parse ⟨2, 16, 10⟩ (fun _ => 0) 128 1000 manyFormals) = (4, 0) ∧
    roomy ⟨2, 16, 10⟩ (fun _ => 0) 128 1000 [.n .start] (PSt.init manyFormals) = true := by decide +kernel

end Snek.Pda
