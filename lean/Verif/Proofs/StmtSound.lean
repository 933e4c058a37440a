import Verif.Proofs.ParseSound
import Verif.Spec.Program
/-! Whatever the statement parser accepts is a program. -/
namespace Snek.Parse
open Snek.Vm Snek.Lang Spec.Syntax Spec.Program

theorem split_map {ts : List LT} {t0 r0 : List T} (h : ts.map Prod.fst = t0 ++ r0) :
    ts = ts.take t0.length ++ ts.drop (ts.length - r0.length) ∧ (ts.take t0.length).map Prod.fst = t0 := by
  have hl : ts.length = t0.length + r0.length := by simpa using congrArg List.length h
  have e : ts.length - r0.length = t0.length := by omega
  rw [e]
  refine ⟨(List.take_append_drop _ _).symm, ?_⟩
  rw [List.map_take, h]; simp

theorem exprL_sound {k l ts x r} (hl : l ≤ 13) (h : exprL k l ts = some (x, r)) : ∃ t, ts = t ++ r ∧ Exp l x t := by
  unfold exprL at h
  split at h
  · rename_i e r0 h0
    cases h
    obtain ⟨t0, e0, w⟩ := (sound k).lvl l _ _ _ hl h0
    obtain ⟨h1, h2⟩ := split_map e0
    exact ⟨_, h1, by rw [Exp, h2]; exact w⟩
  · cases h

theorem optActualsL_sound {k ts es ns r} (h : optActualsL k ts = some (es, ns, r)) :
    ∃ t, ts = t ++ r ∧ Writes (.acts es ns) (t.map Prod.fst) := by
  unfold optActualsL at h
  split at h
  · rename_i e r0 h0
    cases h
    obtain ⟨t0, e0, w⟩ := (sound k).optActuals _ _ _ _ h0
    obtain ⟨h1, h2⟩ := split_map e0
    exact ⟨_, h1, by rw [h2]; exact w⟩
  · cases h

theorem delOf_some {e d} (h : delOf e = some d) : Del e d := by
  unfold delOf at h; split at h <;> cases h <;> constructor

theorem assignOf_some {op e v s} (h : assignOf op e v = some s) : Assigns op v e s := by
  unfold assignOf at h; split at h <;> cases h <;> constructor

theorem globalsP_sound' (m : Nat) : ∀ {n} (ts : List LT) (s r x), ts.length ≤ m → globalsP ts = some (s, r) →
    ∃ t, ts = t ++ r ∧ Forms (.names (.seq (.global x) s)) ((.name x, n) :: t) := by
  induction m with
  | zero =>
    intro n ts s r x hm h
    have : ts = [] := List.length_eq_zero_iff.1 (by omega)
    subst this
    cases h; exact ⟨[], rfl, .names1 _ _⟩
  | succ m ih =>
    intro n ts s r x hm h
    rw [globalsP.eq_def] at h
    split at h
    · rename_i m' y n' ts
      obtain ⟨⟨s', u⟩, h1, h2⟩ := bind_some h
      cases h2
      obtain ⟨t, rfl, f⟩ := ih (n := n') ts s' _ y (by simp at hm; omega) h1
      exact ⟨_ :: _ :: t, rfl, .names _ _ _ f⟩
    · cases h
    · cases h; exact ⟨[], rfl, .names1 _ _⟩

theorem globalsP_sound {n} (ts : List LT) (s r x) (h : globalsP ts = some (s, r)) :
    ∃ t, ts = t ++ r ∧ Forms (.names (.seq (.global x) s)) ((.name x, n) :: t) :=
  globalsP_sound' _ ts s r x (Nat.le_refl _) h

theorem delsP_sound {k} : ∀ (ts : List LT) (s r e d t0), Exp 12 e t0 → Del e d → delsP k ts = some (s, r) →
    ∃ t, ts = t ++ r ∧ Forms (.dels (.seq d s)) (t0 ++ t) := by
  induction k with
  | zero => intro ts s r e d t0 _ _ h; cases h
  | succ k ih =>
    intro ts s r e d t0 w0 hd h
    rw [delsP.eq_def] at h
    split at h
    · cases h
    · cases ‹k + 1 = _›
      obtain ⟨⟨e', u⟩, h1, h2⟩ := bind_some h
      obtain ⟨d', h3, h4⟩ := bind_some h2
      obtain ⟨⟨s', u'⟩, h5, h6⟩ := bind_some h4
      obtain ⟨t, rfl, w⟩ := exprL_sound (by decide) h1
      obtain ⟨t', rfl, f⟩ := ih _ _ _ _ _ _ w (delOf_some h3) h5
      cases h6
      exact ⟨_ :: (t ++ t'), by simp <;> rfl, .dels _ w0 hd f⟩
    · cases h; exact ⟨[], rfl, by simpa using Forms.dels1 w0 hd⟩

theorem small_sound {k ts s r} (h : small k ts = some (s, r)) : ∃ t, ts = t ++ r ∧ Forms (.small s) t := by
  unfold small at h
  split at h
  · split at h
    · obtain ⟨⟨e', u⟩, h1, h2⟩ := bind_some h
      obtain ⟨t, rfl, w⟩ := exprL_sound (by decide) h1
      cases h2
      exact ⟨_ :: t, rfl, .ret _ w⟩
    · cases h; exact ⟨[_], rfl, .ret0 _⟩
  · cases h; exact ⟨[_], rfl, .brk _⟩
  · cases h; exact ⟨[_], rfl, .cont _⟩
  · cases h; exact ⟨[_], rfl, .pass _⟩
  · rename_i n x m ts
    obtain ⟨⟨s', u⟩, h1, h2⟩ := bind_some h
    cases h2
    obtain ⟨t, rfl, f⟩ := globalsP_sound (n := m) _ _ _ x h1
    exact ⟨_ :: _ :: t, rfl, .global _ f⟩
  · cases h; exact ⟨[_], rfl, .global0 _⟩
  · obtain ⟨⟨e', u⟩, h1, h2⟩ := bind_some h
    obtain ⟨d', h3, h4⟩ := bind_some h2
    obtain ⟨⟨s', u'⟩, h5, h6⟩ := bind_some h4
    obtain ⟨t, rfl, w⟩ := exprL_sound (by decide) h1
    obtain ⟨t', rfl, f⟩ := delsP_sound _ _ _ _ _ _ w (delOf_some h3) h5
    cases h6
    exact ⟨_ :: (t ++ t'), by simp <;> rfl, .del _ f⟩
  · obtain ⟨⟨e', u⟩, h1, h2⟩ := bind_some h
    obtain ⟨t, rfl, w⟩ := exprL_sound (by decide) h1
    cases h2
    exact ⟨_ :: t, rfl, .assert _ w⟩
  · obtain ⟨⟨e', u⟩, h1, h2⟩ := bind_some h
    obtain ⟨t, rfl, w⟩ := exprL_sound (by decide) h1
    dsimp only at h2
    split at h2
    · obtain ⟨⟨v, u⟩, h3, h4⟩ := bind_some h2
      obtain ⟨s', h5, h6⟩ := bind_some h4
      obtain ⟨t', rfl, w'⟩ := exprL_sound (by decide) h3
      cases h6
      exact ⟨t ++ _ :: t', by simp <;> rfl, .assign _ w w' (assignOf_some h5)⟩
    · cases h2; exact ⟨t, rfl, .expr w⟩

theorem smalls_sound {k} : ∀ {ts s r}, smalls k ts = some (s, r) → ∃ t, ts = t ++ r ∧ Forms (.smalls s) t := by
  induction k with
  | zero => intro ts s r h; cases h
  | succ k ih =>
    intro ts s r h
    rw [smalls] at h
    obtain ⟨⟨e', u⟩, h1, h2⟩ := bind_some h
    obtain ⟨t, rfl, w⟩ := small_sound h1
    dsimp only at h2
    split at h2
    · obtain ⟨⟨v, u⟩, h3, h4⟩ := bind_some h2
      obtain ⟨t', rfl, w'⟩ := ih h3
      cases h4
      exact ⟨t ++ _ :: t', by simp <;> rfl, .smalls _ w w'⟩
    · cases h2; exact ⟨t, rfl, .smalls1 w⟩

theorem writes_ne {l x t} (w : Writes (.e l x) t) : t ≠ [] := by
  generalize hc : Cat.e l x = c at w
  induction w generalizing l x <;> cases hc <;> simp
  all_goals first | (rename_i ih; exact ih rfl) | skip
  all_goals (rename_i w _; cases w <;> simp)

theorem forms_ne {s t} (f : Forms (.small s) t) : t ≠ [] := by
  cases f <;> first | (simp; done) | skip
  rename_i w; intro e; subst e; exact writes_ne w rfl

theorem smalls_ne {s t} (f : Forms (.smalls s) t) : t ≠ [] := by
  cases f
  · rename_i f; exact forms_ne f
  · simp

theorem simple_sound {k ts s r} (h : simple k ts = some (s, r)) : ∃ t, ts = t ++ r ∧ Forms (.simple s) t := by
  unfold simple at h
  split at h
  · cases h
  · rename_i h' n ts'
    obtain ⟨⟨e', u⟩, h1, h2⟩ := bind_some h
    obtain ⟨t, e, w⟩ := smalls_sound h1
    dsimp only at h2
    split at h2
    · cases h2
      cases t with
      | nil => exact absurd rfl (smalls_ne w)
      | cons a t =>
        cases e
        exact ⟨(h', n) :: t ++ [_], by simp <;> rfl, .simple _ w⟩
    · cases h2

structure SndS (k : Nat) : Prop where
  stat : ∀ ts s r, stat k ts = some (s, r) → ∃ t, ts = t ++ r ∧ Forms (.stat s) t
  elifs : ∀ ts s r, elifs k ts = some (s, r) → ∃ t, ts = t ++ r ∧ Forms (.elifs s) t
  whileElse : ∀ ts s r, whileElse k ts = some (s, r) → ∃ t, ts = t ++ r ∧ Forms (.orElse s) t
  suite : ∀ ts s r, suite k ts = some (s, r) → ∃ t, ts = t ++ r ∧ Forms (.suite s) t
  stats : ∀ ts s r, stats k ts = some (s, r) → ∃ t, ts = t ++ r ∧ Forms (.stats s) t

theorem sound_stat {k} (ih : SndS k) (ts s r) (h : stat (k+1) ts = some (s, r)) : ∃ t, ts = t ++ r ∧ Forms (.stat s) t := by
  rw [Snek.Parse.stat.eq_def] at h
  split at h
  · cases h
  · cases h; exact ⟨[_], rfl, .blank _⟩
  · cases ‹k + 1 = _›
    obtain ⟨⟨e', u⟩, h1, h2⟩ := bind_some h
    obtain ⟨t, rfl, w⟩ := exprL_sound (by decide) h1
    dsimp only at h2
    split at h2
    · obtain ⟨⟨v, u⟩, h3, h4⟩ := bind_some h2
      obtain ⟨⟨v', u'⟩, h5, h6⟩ := bind_some h4
      obtain ⟨t', rfl, w'⟩ := ih.suite _ _ _ h3
      obtain ⟨t'', rfl, w''⟩ := ih.elifs _ _ _ h5
      cases h6
      exact ⟨_ :: t ++ _ :: t' ++ t'', by simp <;> repeat' (first | rfl | apply And.intro), .ifs _ _ w w' w''⟩
    · cases h2
  · cases ‹k + 1 = _›
    obtain ⟨⟨e', u⟩, h1, h2⟩ := bind_some h
    obtain ⟨t, rfl, w⟩ := exprL_sound (by decide) h1
    dsimp only at h2
    split at h2
    · obtain ⟨⟨v, u⟩, h3, h4⟩ := bind_some h2
      obtain ⟨⟨v', u'⟩, h5, h6⟩ := bind_some h4
      obtain ⟨t', rfl, w'⟩ := ih.suite _ _ _ h3
      obtain ⟨t'', rfl, w''⟩ := ih.whileElse _ _ _ h5
      cases h6
      exact ⟨_ :: t ++ _ :: t' ++ t'', by simp <;> repeat' (first | rfl | apply And.intro), .whil _ _ w w' w''⟩
    · cases h2
  · cases ‹k + 1 = _›
    obtain ⟨⟨es, ns, u⟩, h1, h2⟩ := bind_some h
    obtain ⟨t, rfl, w⟩ := optActualsL_sound h1
    dsimp only at h2
    split at h2
    · split at h2
      · cases h2
      · rename_i hlen
        obtain ⟨⟨v, u⟩, h3, h4⟩ := bind_some h2
        obtain ⟨⟨v', u'⟩, h5, h6⟩ := bind_some h4
        obtain ⟨t', rfl, w'⟩ := ih.suite _ _ _ h3
        obtain ⟨t'', rfl, w''⟩ := ih.whileElse _ _ _ h5
        obtain ⟨rfl, hlt⟩ := named_nil hlen
        cases h6
        exact ⟨_ :: _ :: _ :: _ :: _ :: t ++ _ :: _ :: t' ++ t'', by simp <;> repeat' (first | rfl | apply And.intro),
          .forRange _ _ _ _ _ _ _ _ w hlt w' w''⟩
    · cases h2
  · cases ‹k + 1 = _›
    obtain ⟨⟨e', u⟩, h1, h2⟩ := bind_some h
    obtain ⟨t, rfl, w⟩ := exprL_sound (by decide) h1
    dsimp only at h2
    split at h2
    · obtain ⟨⟨v, u⟩, h3, h4⟩ := bind_some h2
      obtain ⟨⟨v', u'⟩, h5, h6⟩ := bind_some h4
      obtain ⟨t', rfl, w'⟩ := ih.suite _ _ _ h3
      obtain ⟨t'', rfl, w''⟩ := ih.whileElse _ _ _ h5
      cases h6
      exact ⟨_ :: _ :: _ :: t ++ _ :: t' ++ t'', by simp <;> repeat' (first | rfl | apply And.intro), .forIn _ _ _ _ _ w w' w''⟩
    · cases h2
  · cases h
  · cases ‹k + 1 = _›
    obtain ⟨t, rfl, w⟩ := simple_sound h
    exact ⟨t, rfl, .stat w⟩

theorem sound_elifs {k} (ih : SndS k) (ts s r) (h : elifs (k+1) ts = some (s, r)) : ∃ t, ts = t ++ r ∧ Forms (.elifs s) t := by
  rw [Snek.Parse.elifs.eq_def] at h
  split at h
  · cases h
  · cases ‹k + 1 = _›
    obtain ⟨⟨e', u⟩, h1, h2⟩ := bind_some h
    obtain ⟨t, rfl, w⟩ := exprL_sound (by decide) h1
    dsimp only at h2
    split at h2
    · obtain ⟨⟨v, u⟩, h3, h4⟩ := bind_some h2
      obtain ⟨⟨v', u'⟩, h5, h6⟩ := bind_some h4
      obtain ⟨t', rfl, w'⟩ := ih.suite _ _ _ h3
      obtain ⟨t'', rfl, w''⟩ := ih.elifs _ _ _ h5
      cases h6
      exact ⟨_ :: t ++ _ :: t' ++ t'', by simp <;> repeat' (first | rfl | apply And.intro), .elif _ _ w w' w''⟩
    · cases h2
  · cases ‹k + 1 = _›
    obtain ⟨⟨e', u⟩, h1, h2⟩ := bind_some h
    obtain ⟨t, rfl, w⟩ := ih.suite _ _ _ h1
    cases h2
    exact ⟨_ :: _ :: t, rfl, .els _ _ w⟩
  · cases h
  · cases h; exact ⟨[], rfl, .noElse⟩

theorem sound_whileElse {k} (ih : SndS k) (ts s r) (h : whileElse (k+1) ts = some (s, r)) :
    ∃ t, ts = t ++ r ∧ Forms (.orElse s) t := by
  rw [Snek.Parse.whileElse.eq_def] at h
  split at h
  · cases h
  · cases ‹k + 1 = _›
    obtain ⟨t, rfl, w⟩ := ih.suite _ _ _ h
    exact ⟨_ :: _ :: t, rfl, .orElse _ _ w⟩
  · cases h
  · cases h; exact ⟨[], rfl, .noOrElse⟩

theorem sound_suite {k} (ih : SndS k) (ts s r) (h : suite (k+1) ts = some (s, r)) : ∃ t, ts = t ++ r ∧ Forms (.suite s) t := by
  rw [Snek.Parse.suite.eq_def] at h
  split at h
  · cases h
  · cases ‹k + 1 = _›
    obtain ⟨⟨e', u⟩, h1, h2⟩ := bind_some h
    obtain ⟨t, rfl, w⟩ := ih.stats _ _ _ h1
    dsimp only at h2
    split at h2
    · split at h2
      · cases h2
      · cases h2
        exact ⟨_ :: _ :: t ++ [_], by simp <;> repeat' (first | rfl | apply And.intro), .block _ _ _ _ _ w (by omega)⟩
    · cases h2
  · cases h
  · cases ‹k + 1 = _›
    obtain ⟨t, rfl, w⟩ := simple_sound h
    exact ⟨t, rfl, .line w⟩

theorem sound_stats {k} (ih : SndS k) (ts s r) (h : stats (k+1) ts = some (s, r)) : ∃ t, ts = t ++ r ∧ Forms (.stats s) t := by
  rw [Snek.Parse.stats] at h
  obtain ⟨⟨e', u⟩, h1, h2⟩ := bind_some h
  obtain ⟨t, rfl, w⟩ := ih.stat _ _ _ h1
  dsimp only at h2
  split at h2
  · obtain ⟨⟨v, u⟩, h3, h4⟩ := bind_some h2
    obtain ⟨t', rfl, w'⟩ := ih.stats _ _ _ h3
    cases h4
    exact ⟨t ++ t', by simp, .stats w w'⟩
  · cases h2; exact ⟨t, rfl, .stats1 w⟩

theorem soundS (k : Nat) : SndS k := by
  induction k with
  | zero =>
    constructor
    · intro _ _ _ h; rw [Snek.Parse.stat] at h; cases h
    · intro _ _ _ h; rw [Snek.Parse.elifs] at h; cases h
    · intro _ _ _ h; rw [Snek.Parse.whileElse] at h; cases h
    · intro _ _ _ h; rw [Snek.Parse.suite] at h; cases h
    · intro _ _ _ h; rw [Snek.Parse.stats] at h; cases h
  | succ k ih => exact ⟨sound_stat ih, sound_elifs ih, sound_whileElse ih, sound_suite ih, sound_stats ih⟩

theorem formals_sound {k} : ∀ {nm ts xs ns r}, formals k nm ts = some (xs, ns, r) →
    ∃ t, ts = t ++ r ∧ Forms (.formals nm xs ns) t := by
  induction k with
  | zero => intro _ _ _ _ _ h; cases h
  | succ k ih =>
    intro nm ts xs ns r h
    rw [formals.eq_def] at h
    split at h
    · cases h
    · cases ‹k + 1 = _›
      obtain ⟨⟨e', u⟩, h1, h2⟩ := bind_some h
      obtain ⟨t, rfl, w⟩ := exprL_sound (by decide) h1
      dsimp only at h2
      split at h2
      · obtain ⟨⟨xs', ns', u⟩, h3, h4⟩ := bind_some h2
        obtain ⟨t', rfl, w'⟩ := ih h3
        cases h4
        exact ⟨_ :: _ :: t ++ _ :: t', by simp <;> repeat' (first | rfl | apply And.intro), .named _ _ _ _ _ _ w w'⟩
      · cases h2; exact ⟨_ :: _ :: t, rfl, .named1 _ _ _ _ _ w⟩
    · cases ‹k + 1 = _›
      split at h
      · cases h
      · rename_i hnm
        rw [Bool.not_eq_true] at hnm
        subst hnm
        split at h
        · obtain ⟨⟨xs', ns', u⟩, h3, h4⟩ := bind_some h
          obtain ⟨t', rfl, w'⟩ := ih h3
          cases h4
          exact ⟨_ :: _ :: t', rfl, .formal _ _ _ w'⟩
        · cases h; exact ⟨[_], rfl, .formal1 _ _⟩
    · cases h

theorem command_sound {k ts c r} (h : command k ts = some (c, r)) : ∃ t, ts = t ++ r ∧ Forms (.cmd c) t := by
  unfold command at h
  split at h
  · obtain ⟨⟨xs, ns, u⟩, h1, h2⟩ := bind_some h
    dsimp only at h2
    split at h2
    · obtain ⟨⟨s, u⟩, h3, h4⟩ := bind_some h2
      obtain ⟨t', rfl, w'⟩ := (soundS k).suite _ _ _ h3
      cases h4
      unfold optFormals at h1
      split at h1
      · obtain ⟨t, e, w⟩ := formals_sound h1
        rw [e]
        exact ⟨_ :: _ :: _ :: t ++ _ :: _ :: t', by simp <;> repeat' (first | rfl | apply And.intro), .fn _ _ _ _ _ _ w w'⟩
      · cases h1
        exact ⟨_ :: _ :: _ :: _ :: _ :: t', rfl, .fn0 _ _ _ _ _ _ w'⟩
    · cases h2
  · cases h; exact ⟨[_, _], rfl, .imp _ _ _⟩
  · split at h
    · rename_i ho
      cases h
      obtain ⟨o, ho⟩ := Option.isSome_iff_exists.1 ho
      obtain ⟨rfl, hl, -⟩ := binTok_some ho
      exact ⟨[_, _, _, _], rfl, .from _ _ _ _ _ _ hl⟩
    · cases h
  · cases h
  · cases h
  · cases h
  · obtain ⟨⟨s, u⟩, h3, h4⟩ := bind_some h
    obtain ⟨t', rfl, w'⟩ := (soundS k).stat _ _ _ h3
    cases h4
    exact ⟨t', rfl, .cmd w'⟩

theorem start_sound {k} : ∀ {ts cs}, start k ts = some cs → Forms (.prog cs) ts := by
  induction k with
  | zero => intro _ _ h; cases h
  | succ k ih =>
    intro ts cs h
    rw [start.eq_def] at h
    split at h
    · cases h
    · cases h; exact .done _
    · cases ‹k + 1 = _›
      obtain ⟨⟨c, u⟩, h1, h2⟩ := bind_some h
      obtain ⟨cs', h3, h4⟩ := bind_some h2
      obtain ⟨t, rfl, w⟩ := command_sound h1
      cases h4
      exact .more w (ih h3)

end Snek.Parse
