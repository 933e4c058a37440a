import Verif.Proofs.ParseComplete
import Verif.Proofs.StmtSound
/-! Every program is accepted by the statement parser, as what it is. -/
namespace Snek.Parse
open Snek.Vm Snek.Lang Spec.Syntax Spec.Program

/-! ## Expressions among tokens with lines -/

theorem exprL_of {k l x} {t rest : List LT} (h : lvl k l (t.map Prod.fst ++ rest.map Prod.fst) = some (x, rest.map Prod.fst)) :
    exprL k l (t ++ rest) = some (x, rest) := by
  unfold exprL
  rw [List.map_append, h]
  simp

theorem optActualsL_of {k es ns} {t rest : List LT}
    (h : optActuals k (t.map Prod.fst ++ rest.map Prod.fst) = some (es, ns, rest.map Prod.fst)) :
    optActualsL k (t ++ rest) = some (es, ns, rest) := by
  unfold optActualsL
  rw [List.map_append, h]
  simp

theorem exprL_read {l x} {t : List LT} (w : Exp l x t) (h n) (rest : List LT) (hc : contLevel h = none) :
    Ev fun k => exprL k l (t ++ (h, n) :: rest) = some (x, (h, n) :: rest) := by
  refine ((reads w).before (a := h) (rest := rest.map Prod.fst) hc).mono fun k hk => ?_
  apply exprL_of
  simpa using hk

theorem optActualsL_read {es ns} {t : List LT} (w : Writes (.acts es ns) (t.map Prod.fst)) (n) (rest : List LT) :
    Ev fun k => optActualsL k (t ++ (.cp, n) :: rest) = some (es, ns, (.cp, n) :: rest) := by
  refine (reads w (.cp :: rest.map Prod.fst) (End.cons_cp _)).mono fun k hk => ?_
  apply optActualsL_of
  simpa using hk

theorem exp_starts {l x} {t : List LT} (w : Exp l x t) (rest : List LT) : startsE (t ++ rest) = true := by
  unfold startsE
  rw [List.map_append]
  exact starts_of w _

theorem exp_head {l x} {t : List LT} (w : Exp l x t) : ∃ h n u, t = (h, n) :: u ∧ startsExpr [h] = true := by
  obtain ⟨h, u, e, f⟩ := begins w
  cases t with
  | nil => cases e
  | cons a t =>
    obtain ⟨a, n⟩ := a
    simp at e
    obtain ⟨rfl, -⟩ := e
    exact ⟨_, n, t, rfl, f.1⟩

/-! ## First tokens -/

def isSmallTok (h : T) : Bool := startsSmall [(h, 0)]
def isStatTok (h : T) : Bool := startsStat [(h, 0)]

theorem startsSmall_cons (h n) (ts : List LT) : startsSmall ((h, n) :: ts) = isSmallTok h := by
  unfold isSmallTok
  cases h <;> first | rfl | (rename_i k; cases k <;> rfl)

theorem startsStat_cons (h n) (ts : List LT) : startsStat ((h, n) :: ts) = isStatTok h := by
  unfold isStatTok
  cases h <;> first | rfl | (rename_i k; cases k <;> rfl)

theorem small_of_expr {h} (e : startsExpr [h] = true) : isSmallTok h = true := by
  unfold isSmallTok
  cases h <;> first | rfl | cases e | skip
  all_goals first | exact e | skip
  rename_i k; cases k <;> first | rfl | cases e

theorem stat_of_small {h} (e : isSmallTok h = true) : isStatTok h = true := by
  cases h <;> first | rfl | cases e | skip
  all_goals first | exact e | skip
  rename_i k; cases k <;> first | rfl | cases e

/-- First tokens of statements. -/
def BeginsS : SCat → List LT → Prop
  | .small _, t | .smalls _, t | .simple _, t => ∃ h n u, t = (h, n) :: u ∧ isSmallTok h = true
  | .stat _, t | .stats _, t => ∃ h n u, t = (h, n) :: u ∧ isStatTok h = true
  | .cmd _, t => ∃ h n u, t = (h, n) :: u ∧ h ≠ .kw .else_ ∧ h ≠ .kw .elif ∧ h ≠ .eof
  | .prog _, t => ∃ h n u, t = (h, n) :: u ∧ h ≠ .kw .else_ ∧ h ≠ .kw .elif
  | _, _ => True

theorem beginsS {c t} (f : Forms c t) : BeginsS c t := by
  induction f
  case assign w _ _ =>
    obtain ⟨h, n, u, rfl, e⟩ := exp_head w
    exact ⟨_, _, _, rfl, small_of_expr e⟩
  case expr w =>
    obtain ⟨h, n, u, rfl, e⟩ := exp_head w
    exact ⟨_, _, _, rfl, small_of_expr e⟩
  case smalls1 ih => exact ih
  case smalls ih _ => obtain ⟨h, n, u, rfl, e⟩ := ih; exact ⟨_, _, _, rfl, e⟩
  case simple ih => obtain ⟨h, n, u, e', e⟩ := ih; cases e'; exact ⟨_, _, _, rfl, e⟩
  case stat ih => obtain ⟨h, n, u, rfl, e⟩ := ih; exact ⟨_, _, _, rfl, stat_of_small e⟩
  case stats1 ih => exact ih
  case stats ih _ => obtain ⟨h, n, u, rfl, e⟩ := ih; exact ⟨_, _, _, rfl, e⟩
  case cmd ih =>
    obtain ⟨h, n, u, rfl, e⟩ := ih
    refine ⟨_, _, _, rfl, ?_, ?_, ?_⟩ <;> rintro rfl <;> cases e
  case more ih _ => obtain ⟨h, n, u, rfl, e1, e2, -⟩ := ih; exact ⟨_, _, _, rfl, e1, e2⟩
  all_goals first
    | exact trivial
    | exact ⟨_, _, _, rfl, rfl⟩
    | exact ⟨_, _, _, rfl, by simp, by simp⟩
    | exact ⟨_, _, _, rfl, by simp, by simp, by simp⟩

/-- `rest` begins with `;` or a newline. -/
def SN (rest : List LT) : Prop := ∃ h n r, rest = (h, n) :: r ∧ (h = .semi ∨ h = .nl)

/-- `rest` does not continue an `if`. -/
def NoElse (rest : List LT) : Prop := ∀ h n r, rest = (h, n) :: r → h ≠ .kw .else_ ∧ h ≠ .kw .elif

/-- What the parser makes of formed things. -/
def ReadsS : SCat → List LT → Prop
  | .names s, t => ∃ x n u s', t = (.name x, n) :: u ∧ s = .seq (.global x) s' ∧
      ∀ rest, SN rest → globalsP (u ++ rest) = some (s', rest)
  | .dels s, t => ∃ e d t1 s1 u, t = t1 ++ u ∧ delOf e = some d ∧ s = .seq d s1 ∧ ∀ rest, SN rest →
      (Ev fun k => exprL k 12 (t1 ++ (u ++ rest)) = some (e, u ++ rest)) ∧ Ev fun k => delsP k (u ++ rest) = some (s1, rest)
  | .small s, t => ∀ rest, SN rest → Ev fun k => small k (t ++ rest) = some (s, rest)
  | .smalls s, t => ∀ n rest, Ev fun k => smalls k (t ++ (.nl, n) :: rest) = some (s, (.nl, n) :: rest)
  | .simple s, t => ∀ rest, Ev fun k => simple k (t ++ rest) = some (s, rest)
  | .stat s, t => ∀ rest, NoElse rest → Ev fun k => stat k (t ++ rest) = some (s, rest)
  | .stats s, t => ∀ rest, NoElse rest → startsStat rest = false → Ev fun k => stats k (t ++ rest) = some (s, rest)
  | .suite s, t => ∀ rest, Ev fun k => suite k (t ++ rest) = some (s, rest)
  | .elifs e, t => ∀ rest, NoElse rest → Ev fun k => elifs k (t ++ rest) = some (e, rest)
  | .orElse s, t => ∀ rest, NoElse rest → Ev fun k => whileElse k (t ++ rest) = some (s, rest)
  | .formals b xs ns, t => ∀ nm n rest, (nm = true → b = true) →
      Ev fun k => formals k nm (t ++ (.cp, n) :: rest) = some (xs, ns, (.cp, n) :: rest)
  | .cmd c, t => ∀ rest, NoElse rest → Ev fun k => command k (t ++ rest) = some (c, rest)
  | .prog cs, t => Ev fun k => start k t = some cs

/-! ## Steps -/

theorem delOf_of {e d} (h : Del e d) : delOf e = some d := by cases h <;> rfl
theorem assignOf_of {op v e s} (h : Assigns op v e s) : assignOf op e v = some s := by cases h <;> rfl

theorem SN.cont {h n r} (s : SN ((h, n) :: r)) : contLevel h = none := by
  obtain ⟨h', n', r', e, s⟩ := s
  cases e
  rcases s with rfl | rfl <;> rfl

theorem SN.read {rest : List LT} (s : SN rest) {l x} {t : List LT} (w : Exp l x t) :
    Ev fun k => exprL k l (t ++ rest) = some (x, rest) := by
  obtain ⟨h, n, r, rfl, s'⟩ := s
  exact exprL_read w h n r (by rcases s' with rfl | rfl <;> rfl)

theorem SN.starts {rest : List LT} (s : SN rest) : startsE rest = false := by
  obtain ⟨h, n, r, rfl, s⟩ := s
  rcases s with rfl | rfl <;> rfl

theorem SN.globals {rest : List LT} (s : SN rest) : globalsP rest = some (.skip, rest) := by
  obtain ⟨h, n, r, rfl, s⟩ := s
  rcases s with rfl | rfl <;> rfl

theorem SN.dels {rest : List LT} (s : SN rest) (k) : delsP (k+1) rest = some (.skip, rest) := by
  obtain ⟨h, n, r, rfl, s⟩ := s
  rcases s with rfl | rfl <;> rfl

theorem small_expr (k h n) (ts : List LT) (e : startsExpr [h] = true) : small k ((h, n) :: ts) =
    (exprL k 0 ((h, n) :: ts) >>= fun p => match p.2 with
      | (.assign op, _) :: ts => exprL k 0 ts >>= fun q => assignOf op p.1 q.1 >>= fun s => some (s, q.2)
      | ts => some (.expr p.1, ts)) := by
  rw [small.eq_def]
  split <;> first | (rename_i e'; cases e'; cases e; done) | skip
  rfl

theorem stat_simple (k h n) (ts : List LT) (e : isSmallTok h = true) : stat (k+1) ((h, n) :: ts) = simple k ((h, n) :: ts) := by
  rw [stat.eq_def]
  split <;> first | (rename_i e'; cases e'; cases e; done) | skip
  · rename_i h; cases h
  · cases ‹k + 1 = _›; rfl

theorem suite_simple (k h n) (ts : List LT) (e : isSmallTok h = true) : suite (k+1) ((h, n) :: ts) = simple k ((h, n) :: ts) := by
  rw [suite.eq_def]
  split <;> first | (rename_i e'; cases e'; cases e; done) | skip
  · rename_i h; cases h
  · cases ‹k + 1 = _›; rfl

theorem elifs_stop (k) {rest : List LT} (h : NoElse rest) : elifs (k+1) rest = some (.none, rest) := by
  rw [elifs.eq_def]
  split
  · cases ‹k + 1 = 0›
  · exact absurd rfl (h _ _ _ rfl).2
  · exact absurd rfl (h _ _ _ rfl).1
  · exact absurd rfl (h _ _ _ rfl).1
  · rfl

theorem whileElse_stop (k) {rest : List LT} (h : NoElse rest) : whileElse (k+1) rest = some (.skip, rest) := by
  rw [whileElse.eq_def]
  split
  · cases ‹k + 1 = 0›
  · exact absurd rfl (h _ _ _ rfl).1
  · exact absurd rfl (h _ _ _ rfl).1
  · rfl

theorem NoElse.of_stat {h n} {ts : List LT} (e : isStatTok h = true) : NoElse ((h, n) :: ts) := by
  intro h' n' r e'; cases e'
  constructor <;> rintro rfl <;> cases e

theorem optFormals_of {t rest : List LT} {b xs ns} (f : Forms (.formals b xs ns) t) (k) : optFormals k (t ++ rest) = formals k false (t ++ rest) := by
  cases f <;> rfl

theorem command_stat (k h n) (ts : List LT) (e : isStatTok h = true) :
    command k ((h, n) :: ts) = (stat k ((h, n) :: ts) >>= fun p => some (.stat p.1, p.2)) := by
  rw [command.eq_def]
  split <;> first | (rename_i e'; cases e'; cases e; done) | skip
  rfl

theorem start_more (k h n) (ts : List LT) (e : h ≠ .eof) :
    start (k+1) ((h, n) :: ts) = (command k ((h, n) :: ts) >>= fun p => start k p.2 >>= fun cs => some (p.1 :: cs)) := by
  rw [start.eq_def]
  split
  · rename_i h; cases h
  · rename_i e'; cases e'; exact absurd rfl e
  · cases ‹k + 1 = _›; rfl

theorem readsS {c t} (f : Forms c t) : ReadsS c t := by
  induction f
  case names1 x n => exact ⟨x, n, [], .skip, rfl, rfl, fun rest s => s.globals⟩
  case names x n m f ih =>
    obtain ⟨y, n', u, s', rfl, rfl, h⟩ := ih
    refine ⟨x, n, (.comma, m) :: (.name y, n') :: u, _, rfl, rfl, fun rest s => ?_⟩
    rw [List.cons_append, List.cons_append, globalsP, h rest s]; rfl
  case dels1 e d t w hd =>
    refine ⟨e, d, t, .skip, [], by simp, delOf_of hd, rfl, fun rest s => ⟨?_, Ev.of fun k => s.dels k⟩⟩
    simpa using s.read w
  case dels e d t s u m w hd f ih =>
    obtain ⟨e', d', t1, s1, u', rfl, hd', rfl, h⟩ := ih
    refine ⟨e, d, t, _, (.comma, m) :: (t1 ++ u'), rfl, delOf_of hd, rfl, fun rest s => ⟨?_, ?_⟩⟩
    · exact exprL_read w _ _ _ rfl
    · obtain ⟨h1, h2⟩ := h rest s
      refine (h1.and h2).step fun k hk => ?_
      rw [List.cons_append, delsP, List.append_assoc, hk.1]
      simp [hd', hk.2]
  case ret0 n =>
    intro rest s
    refine Ev.of fun k => ?_
    rw [List.cons_append, List.nil_append, small, s.starts]; rfl
  case ret e t n w =>
    intro rest s
    refine (s.read w).mono fun k hk => ?_
    rw [List.cons_append, small, exp_starts w, hk]; rfl
  case brk n => intro rest s; exact Ev.of fun k => rfl
  case cont n => intro rest s; exact Ev.of fun k => rfl
  case pass n => intro rest s; exact Ev.of fun k => rfl
  case global0 n =>
    intro rest s
    refine Ev.of fun k => ?_
    obtain ⟨h, n, r, rfl, s⟩ := s
    rcases s with rfl | rfl <;> rfl
  case global s t n f ih =>
    obtain ⟨x, n', u, s', rfl, rfl, h⟩ := ih
    intro rest s
    refine Ev.of fun k => ?_
    rw [List.cons_append, List.cons_append, small, h rest s]; rfl
  case del s t n f ih =>
    obtain ⟨e', d', t1, s1, u', rfl, hd', rfl, h⟩ := ih
    intro rest s
    obtain ⟨h1, h2⟩ := h rest s
    refine (h1.and h2).mono fun k hk => ?_
    rw [List.cons_append, small, List.append_assoc, hk.1]
    simp [hd', hk.2]
  case assert e t n w =>
    intro rest s
    refine (s.read w).mono fun k hk => ?_
    rw [List.cons_append, small, hk]; rfl
  case assign e t op v u s n w w' ha =>
    intro rest s
    refine ((exprL_read w (.assign op) n (u ++ rest) rfl).and (s.read w')).mono fun k hk => ?_
    obtain ⟨h, m, t', rfl, e⟩ := exp_head w
    have h1 := hk.1
    rw [List.append_assoc, List.cons_append, List.cons_append, small_expr k _ _ _ e]
    rw [List.cons_append] at h1
    rw [h1]
    simp [hk.2, assignOf_of ha]
  case expr e t w =>
    intro rest s
    refine (s.read w).mono fun k hk => ?_
    obtain ⟨h, m, t', rfl, e⟩ := exp_head w
    rw [List.cons_append] at hk ⊢
    rw [small_expr k _ _ _ e, hk]
    obtain ⟨h, n, r, rfl, s⟩ := s
    rcases s with rfl | rfl <;> rfl
  case smalls1 s t f ih =>
    intro n rest
    refine (ih ((.nl, n) :: rest) ⟨_, _, _, rfl, .inr rfl⟩).step fun k hk => ?_
    rw [smalls, hk]; rfl
  case smalls s t r u n f f' ih ih' =>
    intro m rest
    refine ((ih ((.semi, n) :: (u ++ (.nl, m) :: rest)) ⟨_, _, _, rfl, .inl rfl⟩).and (ih' m rest)).step fun k hk => ?_
    rw [smalls, List.append_assoc, List.cons_append, hk.1]
    simp [hk.2]
  case simple s h n t m f ih =>
    intro rest
    refine (ih m rest).mono fun k hk => ?_
    have e : (h, n) :: t ++ [(T.nl, m)] ++ rest = (h, n) :: (t ++ (T.nl, m) :: rest) := by simp
    rw [e, simple]
    rw [List.cons_append] at hk
    simp [hk]
  case blank n => intro rest s; exact Ev.of fun k => by rw [List.cons_append, List.nil_append, stat]
  case stat s t f ih =>
    intro rest s
    refine (ih rest).step fun k hk => ?_
    obtain ⟨h, n, u, rfl, e⟩ := beginsS f
    rw [List.cons_append] at hk ⊢
    rw [stat_simple _ _ _ _ e, hk]
  case ifs c t s u e v n m w f f' ih ih' =>
    intro rest s
    refine ((exprL_read w .colon m (u ++ (v ++ rest)) rfl).and ((ih (v ++ rest)).and (ih' rest s))).step fun k hk => ?_
    simp only [List.append_assoc, List.cons_append] at hk ⊢
    rw [stat, hk.1]
    simp [hk.2]
  case whil c t s u e v n m w f f' ih ih' =>
    intro rest s
    refine ((exprL_read w .colon m (u ++ (v ++ rest)) rfl).and ((ih (v ++ rest)).and (ih' rest s))).step fun k hk => ?_
    simp only [List.append_assoc, List.cons_append] at hk ⊢
    rw [stat, hk.1]
    simp [hk.2]
  case forIn c t s u e v x n n1 n2 m w f f' ih ih' =>
    intro rest s
    refine ((exprL_read w .colon m (u ++ (v ++ rest)) rfl).and ((ih (v ++ rest)).and (ih' rest s))).step fun k hk => ?_
    obtain ⟨h, m', t', rfl, e⟩ := exp_head w
    simp only [List.append_assoc, List.cons_append] at hk ⊢
    rw [stat, hk.1]
    · simp [hk.2]
    · rintro _ _ _ e'; injection e' with e1 e2; injection e1 with e3; subst e3; cases e
  case forRange es t s u e v x n n1 n2 n3 n4 m1 m2 w hl f f' ih ih' =>
    intro rest s
    refine ((optActualsL_read w m1 ((.colon, m2) :: (u ++ (v ++ rest)))).and ((ih (v ++ rest)).and (ih' rest s))).step fun k hk => ?_
    simp only [List.append_assoc, List.cons_append] at hk ⊢
    rw [stat, hk.1]
    refine Eq.trans (if_neg (show ¬ es.length + 256 * 0 ≥ 256 by omega)) ?_
    simp [hk.2]
  case stats1 s t f ih =>
    intro rest s s'
    refine (ih rest s).step fun k hk => ?_
    rw [stats, hk]; simp [s']
  case stats s t r u f f' ih ih' =>
    intro rest s s'
    obtain ⟨h, n, u, rfl, e⟩ := beginsS f'
    refine ((ih (((h, n) :: u) ++ rest) (by rw [List.cons_append]; exact NoElse.of_stat e)).and (ih' rest s s')).step fun k hk => ?_
    have hs : startsStat (((h, n) :: u) ++ rest) = true := by rw [List.cons_append, startsStat_cons]; exact e
    rw [stats, List.append_assoc, hk.1]
    simp only [Option.bind_eq_bind, Option.bind_some]
    rw [if_pos hs, hk.2]; rfl
  case line s t f ih =>
    intro rest
    refine (ih rest).step fun k hk => ?_
    obtain ⟨h, n, u, rfl, e⟩ := beginsS f
    rw [List.cons_append] at hk ⊢
    rw [suite_simple _ _ _ _ e, hk]
  case block s t old new a b c f hle ih =>
    intro rest
    refine (ih ((.exdent new, c) :: rest) (by intro h n r e; cases e; simp) rfl).step fun k hk => ?_
    simp only [List.append_assoc, List.cons_append, List.nil_append] at hk ⊢
    rw [suite, hk]
    simp only [Option.bind_eq_bind, Option.bind_some]
    rw [if_neg (by omega)]
  case noElse => intro rest s; exact Ev.of fun k => elifs_stop k s
  case els s t n m f ih =>
    intro rest _
    refine (ih rest).step fun k hk => ?_
    simp only [List.cons_append]
    rw [elifs, hk]; rfl
  case elif c t s u e v n m w f f' ih ih' =>
    intro rest s
    refine ((exprL_read w .colon m (u ++ (v ++ rest)) rfl).and ((ih (v ++ rest)).and (ih' rest s))).step fun k hk => ?_
    simp only [List.append_assoc, List.cons_append] at hk ⊢
    rw [elifs, hk.1]
    simp [hk.2]
  case noOrElse => intro rest s; exact Ev.of fun k => whileElse_stop k s
  case orElse s t n m f ih =>
    intro rest _
    refine (ih rest).step fun k hk => ?_
    simp only [List.cons_append]
    rw [whileElse, hk]
  case formal1 x n =>
    intro nm m rest hb
    have : nm = false := by cases nm <;> simp_all
    subst this
    exact Ev.of fun k => rfl
  case formal b xs ns t x n m f ih =>
    intro nm m' rest hb
    have : nm = false := by cases nm <;> simp_all
    subst this
    refine (ih false m' rest (by simp)).step fun k hk => ?_
    simp only [List.cons_append]
    rw [formals]
    · simp [hk]
  case named1 e t b x n a m w =>
    intro nm m' rest hb
    refine (exprL_read w .cp m' rest rfl).step fun k hk => ?_
    simp only [List.cons_append]
    rw [formals, hk]; rfl
  case named e t xs ns u b x n a m m' w f ih =>
    intro nm m'' rest hb
    refine ((exprL_read w .comma m' (u ++ (.cp, m'') :: rest) rfl).and (ih true m'' rest (by simp))).step fun k hk => ?_
    simp only [List.append_assoc, List.cons_append] at hk ⊢
    rw [formals, hk.1]; simp [hk.2]
  case cmd s t f ih =>
    intro rest s
    refine (ih rest s).mono fun k hk => ?_
    obtain ⟨h, n, u, rfl, e⟩ := beginsS f
    rw [List.cons_append] at hk ⊢
    rw [command_stat _ _ _ _ e, hk]; rfl
  case fn0 s u x n1 n2 n3 m1 m2 f ih =>
    intro rest _
    refine (ih rest).mono fun k hk => ?_
    simp only [List.cons_append]
    rw [command]
    simp [optFormals, hk]
  case fn xs ns t s u x n1 n2 n3 m1 m2 f f' ih ih' =>
    intro rest _
    refine ((ih false m1 ((.colon, m2) :: (u ++ rest)) (by simp)).and (ih' rest)).mono fun k hk => ?_
    simp only [List.append_assoc, List.cons_append] at hk ⊢
    rw [command, optFormals_of f, hk.1]
    simp [hk.2]
  case imp => intro rest _; exact Ev.of fun k => rfl
  case «from» x o n1 n2 n3 n4 hl =>
    intro rest _
    refine Ev.of fun k => ?_
    simp only [List.cons_append, List.nil_append]
    rw [command, if_pos]
    have ho : o ≠ .pow := by rintro rfl; cases hl
    rw [← hl, binTok_level o ho]; rfl
  case done n => exact Ev.of fun k => rfl
  case more c t cs u f f' ih ih' =>
    obtain ⟨h', n', u', e', e1, e2⟩ := beginsS f'
    refine ((ih u (by rw [e']; intro h n r e; cases e; exact ⟨e1, e2⟩)).and ih').step fun k hk => ?_
    obtain ⟨h, n, v, rfl, -, -, e⟩ := beginsS f
    have h1 := hk.1
    rw [List.cons_append] at h1 ⊢
    rw [start_more _ _ _ _ e, h1]
    simp [hk.2]

end Snek.Parse
