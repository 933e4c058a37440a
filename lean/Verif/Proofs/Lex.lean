import Verif.Model.Lex
/-!
# Reading and pushing back characters

What every part of the lexer does to the characters to come, the line number and the push-back buffer.
-/
namespace Snek.Lex

/-- Newlines in a text. -/
abbrev newlines (l : List Ch) : Nat := l.count 10

/-- Every comment sign is followed by a newline. -/
def CT (l : List Ch) : Prop := ∀ u v, l = u ++ 35 :: v → 10 ∈ v

theorem CT.nil : CT [] := by intro u v h; simp at h

theorem CT.tail {c : Ch} {l : List Ch} (h : CT (c :: l)) : CT l := fun u v e => h (c :: u) v (by simp [e])

theorem CT.cons {c : Ch} {l : List Ch} (h : CT l) (hc : c ≠ 35) : CT (c :: l) := by
  intro u v e
  cases u with
  | nil => simp at e; exact absurd e.1 hc
  | cons d u => simp at e; exact h u v e.2

theorem CT.of_suffix {u l : List Ch} (h : CT (u ++ l)) : CT l := by
  induction u with
  | nil => exact h
  | cons c u ih => exact ih h.tail

theorem CT.append {l : List Ch} (z : Nat) (h : CT l) : CT (l ++ List.replicate z 0) := by
  intro u v e
  rcases List.append_eq_append_iff.1 e with ⟨a, h1, h2⟩ | ⟨a, h1, h2⟩
  · have : (35 : Ch) ∈ List.replicate z 0 := by rw [h2]; simp
    rw [List.mem_replicate] at this
    exact absurd this.2 (by decide)
  · cases a with
    | nil =>
      have : (35 : Ch) ∈ List.replicate z 0 := by simp at h2; rw [← h2]; simp
      rw [List.mem_replicate] at this
      exact absurd this.2 (by decide)
    | cons d a =>
      simp at h2
      obtain ⟨rfl, rfl⟩ := h2
      exact List.mem_append_left _ (h u a h1)

theorem CT.of_append {l m : List Ch} (h : CT (l ++ m)) (hm : 10 ∉ m) : CT l := by
  intro u v e
  have := h u (v ++ m) (by simp [e])
  rcases List.mem_append.1 this with h | h
  · exact h
  · exact absurd h hm

/-- The part of the state that reading changes. -/
structure Core where
  pend : List Ch
  back : Nat
  line : Nat
  over : Bool

/-- Its projection. -/
def St.core (s : St) : Core := ⟨s.pend, s.back, s.line, s.over⟩

/-- Reading one character. -/
def Core.rd (a : Core) : Core :=
  match a.pend with
  | [] => a
  | c :: l => { a with pend := l, back := a.back - 1, line := if c = 10 then a.line + 1 else a.line }

/-- Next character. -/
def Core.hd (a : Core) : Ch := a.pend.headD 0

/-- Pushing one back. -/
def Core.un (c : Ch) (a : Core) : Core :=
  { a with pend := c :: a.pend, back := a.back + 1, line := if c = 10 then a.line - 1 else a.line,
           over := a.over || decide (a.back ≥ 5) }

@[simp] theorem lexchar_core (s : St) : (lexchar s).2.core = s.core.rd := by
  unfold lexchar Core.rd St.core; cases h : s.pend <;> simp_all

@[simp] theorem lexchar_hd (s : St) : (lexchar s).1 = s.core.hd := by
  unfold lexchar Core.hd St.core; cases h : s.pend <;> simp_all

@[simp] theorem unlexchar_core (c : Ch) (s : St) : (unlexchar c s).core = s.core.un c := rfl
@[simp] theorem unlextoken_core (c : Ch) (s : St) : (unlextoken c s).core = s.core.un c := rfl
@[simp] theorem startToken_core (s : St) : (startToken s).core = s.core := rfl
@[simp] theorem addToken_core (C : Cfg) (c : Ch) (s : St) : (addToken C c s).2.core = s.core := by unfold addToken; split <;> rfl
@[simp] theorem lexOpen_core (s : St) : (lexOpen s).core = s.core := rfl
@[simp] theorem lexClose_core (s : St) : (lexClose s).core = s.core := by unfold lexClose; split <;> rfl

@[simp] theorem lextoken_core (C : Cfg) (s : St) : (lextoken C s).2.core = s.core.rd := by
  unfold lextoken; simp only []; split
  · split <;> simp
  · simp

/-- `lextoken` returns the next character, or 0 when the token is full. -/
theorem lextoken_hd (C : Cfg) (s : St) : (lextoken C s).1 = s.core.hd ∨ (lextoken C s).1 = 0 := by
  unfold lextoken; simp only []; split
  · split <;> simp
  · simp

/-- `b` is reached from `a` by reading `cs`. -/
inductive Reads : List Ch → Core → Core → Prop
  | nil (a : Core) : Reads [] a a
  | cons {cs : List Ch} {a b : Core} : Reads cs a.rd b → Reads (a.hd :: cs) a b

theorem Reads.one (a : Core) : Reads [a.hd] a a.rd := .cons (.nil _)

theorem Reads.append {cs ds : List Ch} {a b c : Core} (h : Reads cs a b) (h' : Reads ds b c) : Reads (cs ++ ds) a c := by
  induction h with
  | nil => exact h'
  | cons _ ih => exact .cons (ih h')

/-- Pushing back several characters, the first argument's last one first. -/
def Core.uns (qs : List Ch) (a : Core) : Core := qs.foldr Core.un a

theorem Core.rd_pend (a : Core) : ∃ z, a.pend ++ List.replicate z 0 = a.hd :: a.rd.pend := by
  unfold hd rd
  cases h : a.pend with
  | nil => exact ⟨1, by simp [h]⟩
  | cons c l => exact ⟨0, by simp⟩

theorem Reads.pend {cs : List Ch} {a b : Core} (h : Reads cs a b) : ∃ z, a.pend ++ List.replicate z 0 = cs ++ b.pend := by
  induction h with
  | nil => exact ⟨0, by simp⟩
  | @cons cs a b _ ih =>
    obtain ⟨z, hz⟩ := ih
    obtain ⟨y, hy⟩ := a.rd_pend
    refine ⟨y + z, ?_⟩
    rw [← List.replicate_append_replicate, ← List.append_assoc, hy, List.cons_append, hz, List.cons_append]

theorem Core.rd_line (a : Core) : a.rd.line = a.line + newlines [a.hd] := by
  unfold rd hd
  cases h : a.pend with
  | nil => simp
  | cons c l => by_cases hc : c = 10 <;> simp [hc]

theorem Reads.line {cs : List Ch} {a b : Core} (h : Reads cs a b) : b.line = a.line + newlines cs := by
  induction h with
  | nil => simp
  | @cons cs a b _ ih => rw [ih, a.rd_line, ← List.singleton_append (l := cs)]; simp only [newlines, List.count_append]; omega

theorem Core.rd_back (a : Core) (h : a.back ≤ a.pend.length) : a.rd.back = a.back - 1 ∧ a.rd.back ≤ a.rd.pend.length ∧ a.rd.over = a.over := by
  unfold rd
  cases hp : a.pend with
  | nil => simp_all
  | cons c l => simp_all

theorem Reads.back {cs : List Ch} {a b : Core} (h : Reads cs a b) (ha : a.back ≤ a.pend.length) :
    b.back = a.back - cs.length ∧ b.back ≤ b.pend.length ∧ b.over = a.over := by
  induction h with
  | nil => exact ⟨rfl, ha, rfl⟩
  | @cons cs a b _ ih =>
    obtain ⟨h1, h2, h3⟩ := a.rd_back ha
    obtain ⟨g1, g2, g3⟩ := ih h2
    refine ⟨?_, g2, g3.trans h3⟩
    rw [g1, h1, List.length_cons]; omega

theorem uns_pend (qs : List Ch) (a : Core) : (a.uns qs).pend = qs ++ a.pend := by
  induction qs with
  | nil => rfl
  | cons c qs ih => simp [Core.uns, Core.un] at ih ⊢; exact ih

theorem uns_line (qs : List Ch) (a : Core) : (a.uns qs).line = a.line - newlines qs := by
  induction qs with
  | nil => rfl
  | cons c qs ih =>
    show (Core.un c (a.uns qs)).line = _
    simp only [Core.un]
    by_cases hc : c = 10
    · subst hc; rw [if_pos rfl, ih]; simp [newlines]; omega
    · rw [if_neg hc, ih]; simp [newlines, List.count_cons, hc]

theorem uns_back (qs : List Ch) (a : Core) (h : a.back + qs.length ≤ 5) : (a.uns qs).back = a.back + qs.length ∧ (a.uns qs).over = a.over := by
  induction qs with
  | nil => exact ⟨rfl, rfl⟩
  | cons c qs ih =>
    simp only [List.length_cons] at h
    obtain ⟨h1, h2⟩ := ih (by omega)
    constructor
    · show (a.uns qs).back + 1 = _; rw [h1, List.length_cons]; omega
    · show ((a.uns qs).over || decide ((a.uns qs).back ≥ 5)) = _
      rw [h2, h1]; simp; omega

/-- Characters of a text before its end (0). -/
abbrev real (l : List Ch) : Nat := l.countP (· ≠ 0)

/-- A newline that was pushed back is the last character of the push-back buffer. -/
def NlLast (a : Core) : Prop := a.back ≤ 4 ∧ a.back ≤ a.pend.length ∧ ∀ u v, a.pend = u ++ 10 :: v → a.back ≤ u.length + 1

/-- What every lexer step keeps: the line number plus the newlines to come; the push-back buffer holds at most four characters, all
of them still to come, and never overflowed; comments are terminated; a newline is pushed back before all else. -/
structure Adv (a b : Core) : Prop where
  nl : b.line + newlines b.pend = a.line + newlines a.pend
  pos : 1 ≤ a.line → 1 ≤ b.line
  back : a.back ≤ 4 → a.back ≤ a.pend.length → b.back ≤ 4 ∧ b.back ≤ b.pend.length ∧ b.over = a.over
  ct : CT a.pend → CT b.pend
  nz : real b.pend ≤ real a.pend
  last : NlLast a → NlLast b

theorem Adv.refl (a : Core) : Adv a a := ⟨rfl, id, fun h h' => ⟨h, h', rfl⟩, id, Nat.le_refl _, id⟩

theorem Adv.trans {a b c : Core} (h : Adv a b) (g : Adv b c) : Adv a c := by
  refine ⟨g.nl.trans h.nl, fun h0 => g.pos (h.pos h0), ?_, fun h0 => g.ct (h.ct h0), Nat.le_trans g.nz h.nz, fun h0 => g.last (h.last h0)⟩
  · intro h1 h2
    obtain ⟨p1, p2, p3⟩ := h.back h1 h2
    obtain ⟨q1, q2, q3⟩ := g.back p1 p2
    exact ⟨q1, q2, q3.trans p3⟩

theorem Reads.len {cs : List Ch} {a b : Core} (h : Reads cs a b) : b.pend.length = a.pend.length - cs.length := by
  induction h with
  | nil => simp
  | @cons cs a b _ ih =>
    rw [ih]; unfold Core.rd
    cases hp : a.pend with
    | nil => simp [hp]
    | cons c l => simp

theorem NlLast.rd {a : Core} (h : NlLast a) : NlLast a.rd := by
  obtain ⟨h0, h1, h2⟩ := h
  obtain ⟨g1, g2, -⟩ := a.rd_back h1
  refine ⟨by omega, g2, fun u v e => ?_⟩
  rw [g1]
  cases hp : a.pend with
  | nil => simp [hp] at h1; omega
  | cons c l =>
    have e1 : a.rd.pend = l := by simp [Core.rd, hp]
    have := h2 (c :: u) v (by rw [hp, ← e1, e]; rfl)
    simp only [List.length_cons] at this; omega

theorem NlLast.reads {cs : List Ch} {a b : Core} (ha : NlLast a) (h : Reads cs a b) : NlLast b := by
  induction h with
  | nil => exact ha
  | cons _ ih => exact ih ha.rd

/-- After a newline was read nothing is left of what was pushed back. -/
theorem NlLast.rd_nl {a : Core} (h : NlLast a) (hd : a.hd = 10) : a.rd.back = 0 := by
  obtain ⟨g1, -, -⟩ := a.rd_back h.2.1
  cases hp : a.pend with
  | nil => simp [Core.hd, hp] at hd
  | cons c l =>
    have hc : c = 10 := by simpa [Core.hd, hp] using hd
    have := h.2.2 [] l (by rw [hp, hc]; rfl)
    simp only [List.length_nil] at this; omega

theorem Reads.last {cs : List Ch} {c : Ch} {a b : Core} (h : Reads (cs ++ [c]) a b) : ∃ m, Reads cs a m ∧ c = m.hd ∧ b = m.rd := by
  induction cs generalizing a with
  | nil =>
    cases h with
    | cons h => cases h; exact ⟨a, .nil _, rfl, rfl⟩
  | cons d cs ih =>
    cases h with
    | cons h => obtain ⟨m, h1, h2, h3⟩ := ih h; exact ⟨m, .cons h1, h2, h3⟩

theorem NlLast.uns {ws : List Ch} {c : Ch} {b : Core} (hb : NlLast b) (hw : 10 ∉ ws) (hc : c = 10 → b.back = 0) (h4 : b.back + ws.length + 1 ≤ 4) :
    NlLast (b.uns (ws ++ [c])) := by
  obtain ⟨c1, -⟩ := uns_back (ws ++ [c]) b (by simp; omega)
  simp only [List.length_append, List.length_singleton] at c1
  refine ⟨by rw [c1]; omega, by rw [c1, uns_pend, List.length_append]; have := hb.2.1; simp; omega, fun u v e => ?_⟩
  rw [uns_pend] at e
  rw [c1]
  by_cases hu : u.length < ws.length
  · exfalso
    have h := congrArg (·[u.length]?) e
    simp only [List.append_assoc] at h
    rw [List.getElem?_append_left hu] at h
    simp at h
    exact hw (List.mem_of_getElem? (by simpa using h))
  · have hd := congrArg (List.drop ws.length) e
    rw [List.append_assoc, List.drop_left, List.drop_append_of_le_length (by omega)] at hd
    rcases hu2 : u.drop ws.length with _ | ⟨x, y⟩
    · rw [hu2] at hd
      simp at hd
      have hl := congrArg List.length hu2
      simp at hl
      have := hc hd.1
      omega
    · rw [hu2] at hd
      simp at hd
      have := hb.2.2 y v hd.2
      have hl := congrArg List.length hu2
      simp at hl
      omega

/-- Read `us`, `ws` and `c'`, then push back `ws` and `c'` (or a 0 in its place). -/
theorem Adv.of_reads {us ws : List Ch} {c c' : Ch} {a b : Core} (h : Reads (us ++ ws ++ [c']) a b) (h4 : ws.length ≤ 3) (hw : 35 ∉ ws)
    (hw' : 10 ∉ ws) (hc : c = c' ∨ c = 0) : Adv a (b.uns (ws ++ [c])) := by
  have hn : newlines [c] ≤ newlines [c'] := by
    rcases hc with rfl | rfl
    · exact Nat.le_refl _
    · simp [newlines]
  obtain ⟨z, hz⟩ := h.pend
  have hzn : newlines a.pend = newlines us + newlines ws + newlines [c'] + newlines b.pend := by
    have := congrArg newlines hz
    simp only [newlines, List.count_append, List.count_replicate] at this ⊢
    simp at this; omega
  have hzr : real a.pend = real us + real ws + real [c'] + real b.pend := by
    have := congrArg real hz
    simp only [real, List.countP_append, List.countP_replicate] at this ⊢
    simp at this ⊢; omega
  have hcr : real [c] ≤ real [c'] := by
    rcases hc with rfl | rfl
    · exact Nat.le_refl _
    · simp [real]
  have hbl := h.line
  refine ⟨?_, ?_, ?_, ?_, by rw [uns_pend]; simp only [real, List.countP_append] at *; omega, ?_⟩
  · rw [uns_line, uns_pend, hbl]
    simp only [newlines, List.count_append] at *; omega
  · rw [uns_line, hbl]; simp only [newlines, List.count_append] at *; omega
  · intro h1 h2
    obtain ⟨b1, b2, b3⟩ := h.back h2
    simp only [List.length_append, List.length_singleton] at b1
    obtain ⟨c1, c2⟩ := uns_back (ws ++ [c]) b (by simp; omega)
    simp only [List.length_append, List.length_singleton] at c1
    refine ⟨by rw [c1, b1]; omega, by rw [c1, uns_pend, List.length_append]; simp; omega, c2.trans b3⟩
  · intro hc0
    rw [uns_pend]
    have hc' := CT.append z hc0
    rw [hz] at hc'
    have hc1 : CT (c' :: b.pend) := by
      rw [List.append_assoc (us ++ ws)] at hc'; exact hc'.of_suffix
    have hc2 : CT (c :: b.pend) := by
      rcases hc with rfl | rfl
      · exact hc1
      · exact hc1.tail.cons (by decide)
    clear hz h hc' hzn hbl hzr
    rw [List.append_assoc, List.singleton_append]
    clear h4
    induction ws with
    | nil => exact hc2
    | cons w ws ih =>
      exact (ih (fun h => hw (List.mem_cons_of_mem _ h)) (fun h => hw' (List.mem_cons_of_mem _ h))).cons (fun h => hw (by simp [h]))
  · intro ha
    obtain ⟨m, h1, h2, h3⟩ := h.last
    have hm : NlLast m := ha.reads h1
    obtain ⟨b1, -, -⟩ := h.back ha.2.1
    simp only [List.length_append, List.length_singleton] at b1
    have ha4 := ha.1
    refine (ha.reads h).uns hw' (fun e => ?_) (by omega)
    rw [h3]
    rcases hc with rfl | rfl
    · exact hm.rd_nl (by rw [← h2, e])
    · cases e

/-- Read one character and push it (or a 0) back. -/
theorem Adv.peek (a : Core) {c : Ch} (hc : c = a.hd ∨ c = 0) : Adv a (a.rd.un c) :=
  Adv.of_reads (us := []) (ws := []) (Reads.one a) (by simp) (by simp) (by simp) hc

/-- Read. -/
theorem Adv.rd (a : Core) : Adv a a.rd := by
  obtain ⟨z, hz⟩ := a.rd_pend
  have hzn := congrArg newlines hz
  have hl := a.rd_line
  rw [← List.singleton_append (x := a.hd)] at hzn
  simp only [newlines, List.count_append, List.count_replicate] at hzn hl
  have hzr := congrArg real hz
  rw [← List.singleton_append (x := a.hd)] at hzr
  simp only [real, List.countP_append, List.countP_replicate] at hzr
  refine ⟨?_, ?_, ?_, ?_, by simp only [real]; simp at hzr ⊢; omega, fun h => h.rd⟩
  · simp only [newlines]; simp at hzn; omega
  · omega
  · intro h1 h2
    obtain ⟨g1, g2, g3⟩ := a.rd_back h2
    exact ⟨by omega, g2, g3⟩
  · intro h
    have := CT.append z h
    rw [hz] at this; exact this.tail

theorem Adv.reads {cs : List Ch} {a b : Core} (h : Reads cs a b) : Adv a b := by
  induction h with
  | nil => exact .refl _
  | cons _ ih => exact .trans (.rd _) ih

theorem adv_checkEqual (C : Cfg) (t : Tok) (op : BinOp) (s : St) : Adv s.core (checkEqual C t op s).2.core := by
  unfold checkEqual; simp only []
  split
  · simpa using Adv.peek _ (lextoken_hd C s)
  · simpa using Adv.rd _

theorem adv_two (C : Cfg) (c : Ch) (f g : St → Tok × St) (hf : ∀ s, Adv s.core (f s).2.core) (hg : ∀ s, Adv s.core (g s).2.core) (s : St) :
    Adv s.core (two C c f g s).2.core := by
  unfold two; simp only []
  split
  · exact .trans (by simpa using Adv.rd _) (hf _)
  · exact .trans (by simpa using Adv.peek _ (lextoken_hd C s)) (hg _)

theorem adv_angle (C : Cfg) (c : Ch) (op : BinOp) (e p : Vm.CmpOp) (s : St) : Adv s.core (angle C c op e p s).2.core := by
  unfold angle; simp only []
  split
  · exact .trans (by simpa using Adv.rd _) (adv_checkEqual _ _ _ _)
  · split
    · simpa using Adv.rd _
    · simpa using Adv.peek _ (lextoken_hd C s)

theorem adv_comment {k : Nat} {s s' : St} (h : comment k s = some s') : Adv s.core s'.core ∧ s'.pend.length < s.pend.length ∧
    ∃ cs, Reads (cs ++ [10]) s.core s'.core := by
  induction k generalizing s with
  | zero => cases h
  | succ k ih =>
    simp only [comment] at h
    have hlen := Reads.len (Reads.one s.core)
    split at h
    · rename_i hc
      cases h
      have hr := Reads.one s.core
      refine ⟨by simpa using Adv.rd _, ?_, [], ?_⟩
      · have : s.pend ≠ [] := by intro h0; simp [St.core, Core.hd, h0] at hc
        have h1 : (lexchar s).2.pend.length = s.core.rd.pend.length := congrArg (fun a : Core => a.pend.length) (lexchar_core s)
        rw [h1, hlen]
        show s.pend.length - 1 < _
        cases hp : s.pend with
        | nil => exact absurd hp this
        | cons => simp
      · rw [lexchar_hd] at hc
        rw [hc] at hr; simpa using hr
    · obtain ⟨h1, h2, cs, h3⟩ := ih h
      refine ⟨.trans (by simpa using Adv.rd _) h1, ?_, s.core.hd :: cs, ?_⟩
      · have h2' : s'.core.pend.length < (lexchar s).2.core.pend.length := h2
        rw [lexchar_core, hlen] at h2'
        show s'.core.pend.length < s.core.pend.length
        omega
      · exact .cons (by rw [← lexchar_core]; exact h3)

theorem adv_numLoop (C : Cfg) {k : Nat} {n : NState} {t : NClass} {c : Ch} {s s' : St} {tk : Tok}
    (h : numLoop C k n t c s = some (tk, s')) : Adv s.core s'.core := by
  induction k generalizing n t c s with
  | zero => cases h
  | succ k ih =>
    simp only [numLoop] at h
    generalize ha : (if t ≠ .underscore then addToken C c s else (true, s)) = a at h
    have hcore : a.2.core = s.core := by rw [← ha]; split <;> simp
    rw [← hcore]
    split at h
    · split at h
      · exact .trans (by simpa using Adv.rd _) (ih h)
      · cases h; simpa using Adv.peek _ (.inl rfl)
    · cases h; exact .refl _

theorem adv_escape (s : St) : Adv s.core (escape s).2.core := by
  have h1 : Adv s.core (lexchar s).2.core := by simpa using Adv.rd _
  have h2 : ∀ s : St, Adv s.core (lexchar s).2.core := fun s => by simpa using Adv.rd _
  unfold escape; simp only []
  split
  · exact h1
  · split
    · exact h1
    · split
      · exact h1
      · split
        · split
          · split <;> exact .trans h1 (.trans (h2 _) (h2 _))
          · exact .trans h1 (.trans (h2 _) (h2 _))
        · exact h1

theorem adv_strLoop (C : Cfg) (q : Ch) {k : Nat} {s s' : St} {tk : Tok} (h : strLoop C q k s = some (tk, s')) : Adv s.core s'.core := by
  induction k generalizing s with
  | zero => cases h
  | succ k ih =>
    simp only [strLoop] at h
    have h1 : Adv s.core (lexchar s).2.core := by simpa using Adv.rd _
    split at h
    · cases h; exact h1
    · split at h
      · cases h; simpa using Adv.peek _ (.inl rfl)
      · generalize he : (if (lexchar s).1 = 92 then escape (lexchar s).2 else (some (lexchar s).1, (lexchar s).2)) = e at h
        have h2 : Adv (lexchar s).2.core e.2.core := by
          rw [← he]; split
          · exact adv_escape _
          · exact .refl _
        refine .trans h1 (.trans h2 ?_)
        split at h
        · cases h; exact .refl _
        · split at h
          · have := ih h; simpa using this
          · cases h; simpa using Adv.refl _

theorem reads_spaces {k : Nat} {s s' : St} {n : Nat} {c : Ch} (h : spaces k s = some (n, c, s')) :
    Reads (List.replicate n 32 ++ [c]) s.core s'.core ∧ s'.ign = s.ign ∧ s'.text = s.text := by
  induction k generalizing s n with
  | zero => cases h
  | succ k ih =>
    simp only [spaces] at h
    have hig : (lexchar s).2.ign = s.ign ∧ (lexchar s).2.text = s.text := by unfold lexchar; split <;> exact ⟨rfl, rfl⟩
    split at h
    · rename_i hc
      split at h
      · rename_i heq
        cases h
        obtain ⟨h1, h2, h3⟩ := ih heq
        refine ⟨?_, h2.trans hig.1, h3.trans hig.2⟩
        rw [List.replicate_succ, List.cons_append]
        rw [lexchar_hd] at hc
        rw [← hc]
        exact .cons (by rw [← lexchar_core, ]; rw [hc]; exact h1)
      · cases h
    · cases h
      refine ⟨?_, hig⟩
      rw [lexchar_hd, lexchar_core]; exact .one _

theorem adv_nameLoop (C : Cfg) {k : Nat} {s s' : St} (h : nameLoop C k s = some s') : Adv s.core s'.core := by
  induction k generalizing s with
  | zero => cases h
  | succ k ih =>
    simp only [nameLoop] at h
    split at h
    · exact .trans (by simpa using Adv.rd _) (ih h)
    · cases h; simpa using Adv.peek _ (lextoken_hd C s)

theorem unmatch_core (l : List Ch) (s : St) : (unmatch l s).core = s.core.uns l.reverse := by
  induction l generalizing s with
  | nil => rfl
  | cons c l ih => rw [unmatch, ih]; simp [Core.uns]

/-- The matching loop: what has been read up to now ends in `done` (reversed) and the current character `c`, which may be a 0 in
place of the one read. -/
theorem adv_matchWord (C : Cfg) (sp : Bool) (a : Core) (ns : List Ch) (us : List Ch) (c c' : Ch) (done : List Ch) (s : St)
    (hr : Reads (us ++ ((if sp then [32] else []) ++ done.reverse) ++ [c']) a s.core) (hc : c = c' ∨ c = 0)
    (hlen : done.length + ns.length ≤ 3) (hd : 35 ∉ done) (hns : 35 ∉ ns) (h0 : 0 ∉ ns) (hd' : 10 ∉ done) (hns' : 10 ∉ ns) :
    Adv a (matchWord C sp c done ns s).2.core := by
  induction ns generalizing c c' done s with
  | nil => exact .reads hr
  | cons n ns ih =>
    simp only [List.length_cons] at hlen
    simp only [List.mem_cons, not_or] at hns h0 hns'
    simp only [matchWord]
    split
    · have := Adv.of_reads hr (by cases sp <;> simp <;> omega) (by cases sp <;> simp [hd]) (by cases sp <;> simp [hd']) hc
      cases sp
      · simpa [unmatch_core, Core.uns] using this
      · simpa [unmatch_core, Core.uns] using this
    · rename_i hcn
      simp only [ne_eq, Decidable.not_not] at hcn
      subst hcn
      have hcc : c = c' := hc.resolve_right (fun h => h0.1 h.symm)
      subst hcc
      split
      · exact .reads hr
      · refine ih _ s.core.hd _ _ ?_ (lextoken_hd C s) (by simp at hlen ⊢; omega) (by simp [hd, hns.1]) hns.2 h0.2 (by simp [hd', hns'.1]) hns'.2
        rw [lextoken_core]
        have := hr.append (.one s.core)
        simpa using this

theorem adv_trailing (C : Cfg) {k : Nat} {next : List Ch} {a b : Tok} {s s' : St} {tk : Tok} (h : trailing C k next a b s = some (tk, s'))
    (hlen : next.length ≤ 3) (h1 : 35 ∉ next) (h2 : 0 ∉ next) (h3 : 10 ∉ next) : Adv s.core s'.core := by
  simp only [trailing] at h
  split at h
  · cases h
  · rename_i n c s1 hsp
    obtain ⟨hr, -⟩ := reads_spaces hsp
    simp only [Option.some.injEq, Prod.mk.injEq] at h
    rw [← h.2]
    refine adv_matchWord C _ _ _ (List.replicate (n - 1) 32) c c [] _ ?_ (.inl rfl) (by simpa using hlen) (by simp) h1 h2 (by simp) h3
    rw [addToken_core]
    have : (if decide (n ≠ 0) = true then (addToken C 32 s1).2 else s1).core = s1.core := by split <;> simp
    rw [this]
    cases n with
    | zero => simpa using hr
    | succ n =>
      have e : List.replicate (n + 1) (32 : Ch) = List.replicate n 32 ++ [32] := List.replicate_succ' ..
      rw [e] at hr
      simpa using hr

theorem adv_word (C : Cfg) {k : Nat} {c : Ch} {s s' : St} {tk : Tok} (h : word C k c s = some (tk, s')) : Adv s.core s'.core := by
  simp only [word] at h
  split at h
  · split at h
    · cases h
    · rename_i s1 h1
      refine .trans (adv_nameLoop C h1) ?_
      split at h
      · exact adv_trailing C h (by decide) (by decide) (by decide) (by decide)
      · exact adv_trailing C h (by decide) (by decide) (by decide) (by decide)
      · cases h; exact .refl _
      · cases h; exact .refl _
  · cases h; exact .refl _

theorem adv_string (C : Cfg) {k : Nat} {q : Ch} {s s' : St} {tk : Tok} (h : string C k q s = some (tk, s')) : Adv s.core s'.core :=
  adv_strLoop C (s := startToken s) _ h

theorem adv_number (C : Cfg) {k : Nat} {c : Ch} {s s' : St} {tk : Tok} (h : number C k c s = some (tk, s')) : Adv s.core s'.core :=
  adv_numLoop C (s := startToken s) h

theorem ite_elim {α : Type} {P Q : Prop} [Decidable P] {a b r : α} (h : (if P then a else b) = r) (h1 : a = r → Q) (h2 : b = r → Q) : Q := by
  split at h
  · exact h1 h
  · exact h2 h

theorem ite_elim' {α : Type} {P Q : Prop} [Decidable P] {a b r : α} (h : (if P then a else b) = r) (h1 : P → a = r → Q)
    (h2 : ¬ P → b = r → Q) : Q := by
  split at h
  · exact h1 ‹_› h
  · exact h2 ‹_› h

theorem adv_token (C : Cfg) {k : Nat} {c : Ch} {s s' : St} {tk : Tok} (h : token C k c s = some (tk, s')) : Adv s.core s'.core := by
  have hid : ∀ (f : St → Tok), ∀ s : St, Adv s.core ((fun s => (f s, s)) s : Tok × St).2.core := fun _ _ => .refl _
  have ce := adv_checkEqual C
  unfold token at h
  repeat' (with_reducible refine ite_elim h ?_ ?_ <;> clear h <;> intro h)
  all_goals first
    | with_reducible exact adv_word C h
    | with_reducible exact adv_string C h
    | with_reducible exact adv_number C h
    | (simp only [Option.some.injEq] at h
       obtain rfl : _ = s' := congrArg Prod.snd h
       first
       | with_reducible exact adv_checkEqual ..
       | with_reducible exact adv_angle ..
       | with_reducible exact adv_two _ _ _ _ (adv_checkEqual C _ _) (adv_checkEqual C _ _) _
       | with_reducible exact adv_two _ _ _ _ (hid (fun _ => _)) (hid (fun _ => _)) _
       | with_reducible exact .refl _
       | (simp only [lexOpen_core, lexClose_core]; exact .refl _))

theorem adv_lineStart (C : Cfg) {k : Nat} {c : Ch} {s s' : St} (h : lineStart C k s = some (c, s')) :
    ∃ a, Adv s.core a ∧ c = a.hd ∧ s'.core = a.rd := by
  induction k generalizing s with
  | zero => cases h
  | succ k ih =>
    simp only [lineStart] at h
    split at h
    · cases h
    · rename_i n d s1 hsp
      obtain ⟨hr, -⟩ := reads_spaces hsp
      have hlast : ∃ a, Adv s.core a ∧ d = a.hd ∧ s1.core = a.rd := by
        have : ∀ (n : Nat) (a : Core), Reads (List.replicate n 32 ++ [d]) a s1.core → ∃ b, Adv a b ∧ d = b.hd ∧ s1.core = b.rd := by
          intro n
          induction n with
          | zero =>
            intro a h
            generalize hl : List.replicate 0 32 ++ [d] = l at h
            cases h with
            | nil => simp at hl
            | cons h =>
              simp at hl
              obtain ⟨h1, h2⟩ := hl
              subst h2
              generalize hb : s1.core = b at h
              generalize hr : a.rd = r at h
              cases h
              exact ⟨a, .refl _, h1, hr.symm⟩
          | succ n ih =>
            intro a h
            rw [List.replicate_succ, List.cons_append] at h
            generalize hl : (32 : Ch) :: (List.replicate n 32 ++ [d]) = l at h
            cases h with
            | nil => simp at hl
            | cons h =>
              simp only [List.cons.injEq] at hl
              rw [← hl.2] at h
              obtain ⟨b, b1, b2⟩ := ih _ h
              exact ⟨b, .trans (.rd _) b1, b2⟩
        exact this n s.core hr
      have hs1 : Adv s.core s1.core := .reads hr
      split at h
      · cases h; exact hlast
      · split at h
        · obtain ⟨a, a1, a2⟩ := ih h
          exact ⟨a, .trans hs1 a1, a2⟩
        · split at h
          · split at h
            · cases h
            · rename_i s2 hc
              obtain ⟨a, a1, a2⟩ := ih h
              exact ⟨a, .trans hs1 (.trans (adv_comment hc).1 a1), a2⟩
          · cases h; exact hlast

theorem adv_indentation (C : Cfg) {k : Nat} {t : Option Tok} {s s' : St} (h : indentation C k s = some (t, s')) : Adv s.core s'.core := by
  unfold indentation at h
  split at h
  · cases h; exact .refl _
  · split at h
    · cases h
    · rename_i c s1 hl
      obtain ⟨a, a1, a2, a3⟩ := adv_lineStart C hl
      have : Adv s.core (unlexchar c { s1 with mid := true }).core := by
        refine .trans a1 ?_
        show Adv a (s1.core.un c)
        rw [a3]; exact .peek a (.inl a2)
      dsimp only at h
      split at h
      · split at h
        · cases h; exact this
        · cases h; split <;> exact this
      · cases h; exact this

theorem exdentation_core (s : St) : (exdentation s).2.core = s.core := by
  unfold exdentation
  split
  · split <;> rfl
  · rfl

/-- After a comment its newline can be pushed back. -/
theorem adv_comment_push {k : Nat} {s s' : St} (h : comment k s = some s') : Adv s.core (s'.core.un 10) := by
  obtain ⟨-, -, cs, h⟩ := adv_comment h
  exact Adv.of_reads (us := cs) (ws := []) (c := 10) (by rw [List.append_nil]; exact h) (by simp) (by simp) (by simp) (.inl rfl)

theorem adv_lex (C : Cfg) {k : Nat} {t : Tok} {s s' : St} (h : lex C k s = some (t, s')) : Adv s.core s'.core := by
  induction k generalizing s with
  | zero => cases h
  | succ k ih =>
    simp only [lex] at h
    split at h
    · cases h
    · rename_i hi; cases h; exact adv_indentation C hi
    · rename_i s1 hi
      refine .trans (adv_indentation C hi) ?_
      have hx := exdentation_core s1
      split at h
      · rename_i he; cases h; rw [he] at hx; exact hx ▸ .refl _
      · rename_i s2 he
        rw [he] at hx
        have hx : s2.core = s1.core := hx
        rw [← hx]
        have h1 : Adv s2.core (lextoken C (startToken s2)).2.core := by simpa using Adv.rd s2.core
        split at h
        · split at h
          · exact Adv.trans (b := (lextoken C (startToken s2)).2.core) h1 (ih (s := { (lextoken C (startToken s2)).2 with mid := false }) h)
          · cases h; exact h1
        · split at h
          · split at h
            · cases h
            · rename_i s3 hc
              exact .trans h1 (.trans (adv_comment_push hc) (ih h))
          · split at h
            · exact .trans h1 (ih h)
            · exact .trans h1 (adv_token C h)

end Snek.Lex
