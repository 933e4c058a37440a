import Verif.Proofs.PdaStop
/-! The parser does not read below its value stack. -/
namespace Snek.Pda
open Snek.Vm Snek.Lang Snek.Lex Snek.Parse Spec.Syntax

variable {z : Sizes} {conv : BitVec 32 → BitVec 8} {P : Nat}

/-- What is on the value stack: a value, or what `arrayIndex` leaves (0, or something else and three values below). -/
inductive Kind
  | v | s
  deriving DecidableEq, Repr

/-- The values are at least of these kinds. -/
def KS : List Kind → List Nat → Prop
  | [], _ => True
  | .v :: ks, vs => match vs with
    | [] => False
    | _ :: r => KS ks r
  | .s :: ks, vs => match vs with
    | [] => False
    | 0 :: r => KS ks r
    | (_+1) :: _ :: _ :: _ :: r => KS ks r
    | _ => False

/-- What a symbol takes from the value stack and what it leaves there. -/
def eff : Sym → List (List Kind × List Kind)
  | .a .push0 => [([], [.v]), ([], [.s])]
  | .a .push1 => [([], [.v]), ([.v, .v, .v], [.s])]
  | .a x => match x with
    | .defName | .elif | .elseB | .pushCur | .ifExpr | .whileTest | .forName | .indent | .boolBranch _ | .unopFirst | .uminus
    | .binopFirst | .optExpr | .notTuple => [([], [.v])]
    | .defEnd | .exdent | .shortSecond | .unopSecond | .cmpEnd | .binopSecond | .call | .tuple | .list | .dict => [([.v], [])]
    | .delLvalue | .lvalue | .loopEnd => [([], [.v, .v])]
    | .opLvalue | .ifEnd | .elifEnd => [([.v, .v], [])]
    | .patchLoop => [([.v, .v, .v, .v], [])]
    | .rangeEnd => [([.v, .v], [.v, .v])]
    | .inEnd | .cmpLink => [([.v], [.v, .v])]
    | .index => [([.s], [])]
    | .tupleP | .argNamed | .argPos | .entPart => [([.v], [.v])]
    | _ => [([], [])]
  | .t _ => [([], [])]
  | .n (.tail l) => if l = 3 then [([.v], [.v])] else [([], [])]
  | .n x => match x with
    | .elifStats | .ifExpr | .sliceP | .optExpr | .optTuple | .optTupleP | .optActuals | .actuals => [([], [.v])]
    | .forParams => [([.v], [.v, .v])]
    | .arrayIndex | .optSlice => [([], [.s])]
    | .slice => [([.v], [.s])]
    | .actualP | .actualsP | .actualsEnd | .optEnts | .entsP | .entsEnd | .ent => [([.v], [.v])]
    | _ => [([], [])]

/-- A stack of symbols that takes what is there. -/
inductive Seq : List Sym → List Kind → List Kind → Prop
  | nil {ks} : Seq [] ks ks
  | cons {x k i o ks r} : (i, o) ∈ eff x → Seq k (o ++ ks) r → Seq (x :: k) (i ++ ks) r

theorem Seq.frame {k a b} (h : Seq k a b) (c : List Kind) : Seq k (a ++ c) (b ++ c) := by
  induction h with
  | nil => exact .nil
  | cons h _ ih => rw [List.append_assoc] at ih ⊢; exact .cons h ih

theorem Seq.append {k a b k' c} (h : Seq k a b) (h' : Seq k' b c) : Seq (k ++ k') a c := by
  induction h with
  | nil => exact h'
  | cons h _ ih => exact .cons h (ih h')

/-- All that a sequence can leave. -/
def outs : List Sym → List Kind → List (List Kind)
  | [], ks => [ks]
  | x :: k, ks => (eff x).flatMap fun p => if p.1 = ks.take p.1.length then outs k (p.2 ++ ks.drop p.1.length) else []

theorem outs_seq : ∀ {k ks r}, r ∈ outs k ks → Seq k ks r
  | [], ks, r, h => by
    rw [outs, List.mem_singleton] at h
    exact h ▸ .nil
  | x :: k, ks, r, h => by
    rw [outs, List.mem_flatMap] at h
    obtain ⟨⟨i, o⟩, hp, h⟩ := h
    dsimp only at h
    split at h
    · rename_i e
      have q : i ++ ks.drop i.length = ks := by
        conv => lhs; arg 1; rw [e]
        exact List.take_append_drop ..
      have := Seq.cons hp (outs_seq h)
      rwa [q] at this
    · cases h

theorem prodLvl_seq {l t r} (h : prodLvl l t = some r) : Seq r [] [] := by
  unfold prodLvl at h
  split at h <;> cases h
  all_goals first | (apply outs_seq; simp [outs, eff]; done) | skip
  rename_i h3 _ _ _ _ _ _ _ _ _ _ _ _
  have h3 : l ≠ 3 := h3
  apply outs_seq; simp [outs, eff, h3]

theorem prodTail_seq {l t r} (h : prodTail l t = some r) {i o} (he : (i, o) ∈ eff (.n (.tail l))) : Seq r i o := by
  unfold prodTail at h
  split at h
  all_goals simp [eff] at he
  all_goals first
    | (obtain ⟨rfl, rfl⟩ := he; cases h; apply outs_seq; simp [outs, eff]; done)
    | (obtain ⟨rfl, rfl⟩ := he; split at h <;> cases h <;> apply outs_seq <;> simp [outs, eff]; done)
    | skip
  rename_i h3 _ _ _ _ _
  have h3 : l ≠ 3 := h3
  rw [if_neg h3, List.mem_singleton, Prod.mk.injEq] at he
  obtain ⟨rfl, rfl⟩ := he
  split at h <;> cases h <;> apply outs_seq <;> simp [outs, eff, h3]

theorem prod_seq {x t r} (h : Pda.prod x t = some r) {i o} (he : (i, o) ∈ eff (.n x)) : Seq r i o := by
  unfold Pda.prod at h
  split at h
  all_goals first
    | (cases h; done)
    | exact prodTail_seq h he
    | (simp [eff] at he
       obtain ⟨rfl, rfl⟩ := he
       first
       | exact prodLvl_seq h
       | (cases h; apply outs_seq; simp [outs, eff]; done)
       | (split at h <;> cases h <;> apply outs_seq <;> simp [outs, eff]))

/-- What an action that does not fail leaves is what `eff` says. -/
theorem act_seq {a} {s : PSt} {i o ks} (he : (i, o) ∈ eff (.a a)) (hk : KS (i ++ ks) s.vals) (hv : s.vals.length + 2 ≤ z.V) :
    (∀ s1, act z conv a s = .ok s1 → KS (o ++ ks) s1.vals) ∧ (act z conv a s = .fault → a = .formal ∧ s.formals.length ≥ z.F) := by
  obtain ⟨vals, buf, fd, fs, nn, out, ts, la, tv, line⟩ := s
  dsimp only at hk hv
  have p1 : ∀ (s : PSt) v, s.vals.length ≤ vals.length + 1 → s.push z v = { s with vals := v :: s.vals } :=
    fun s v hs => push_room (by omega)
  cases a
  case index =>
    simp [eff] at he
    obtain ⟨rfl, rfl⟩ := he
    rcases vals with _ | ⟨_ | v1, vs⟩
    · exact hk.elim
    · exact ⟨fun s1 e => by cases e; exact hk, nofun⟩
    · rcases vs with _ | ⟨v2, _ | ⟨v3, _ | ⟨v4, vs⟩⟩⟩
      · exact hk.elim
      · exact hk.elim
      · exact hk.elim
      · refine ⟨fun s1 e => ?_, fun e => ?_⟩
        · simp [act, PSt.pop, PSt.code] at e
          subst e
          exact hk
        · simp [act, PSt.pop, PSt.code] at e
  case formal =>
    simp [eff] at he
    obtain ⟨rfl, rfl⟩ := he
    simp only [act]
    by_cases hF : fs.length ≥ z.F
    · rw [if_pos hF]
      exact ⟨nofun, fun _ => ⟨trivial, hF⟩⟩
    · rw [if_neg hF]
      exact ⟨fun s1 e => by cases e; exact hk, nofun⟩
  case push0 =>
    have e : act z conv .push0 ⟨vals, buf, fd, fs, nn, out, ts, la, tv, line⟩ = .ok ⟨0 :: vals, buf, fd, fs, nn, out, ts, la, tv, line⟩ :=
      congrArg ARes.ok (p1 _ _ (by show vals.length ≤ _; omega))
    rw [e]
    refine ⟨fun s1 e => ?_, nofun⟩
    cases e
    simp [eff] at he
    rcases he with ⟨rfl, rfl⟩ | ⟨rfl, rfl⟩ <;> exact hk
  case push1 =>
    have e : act z conv .push1 ⟨vals, buf, fd, fs, nn, out, ts, la, tv, line⟩ = .ok ⟨1 :: vals, buf, fd, fs, nn, out, ts, la, tv, line⟩ :=
      congrArg ARes.ok (p1 _ _ (by show vals.length ≤ _; omega))
    rw [e]
    refine ⟨fun s1 e => ?_, nofun⟩
    cases e
    simp [eff] at he
    rcases he with ⟨rfl, rfl⟩ | ⟨rfl, rfl⟩
    · exact hk
    · rcases vals with _ | ⟨v1, _ | ⟨v2, _ | ⟨v3, vs⟩⟩⟩
      · exact hk.elim
      · exact hk.elim
      · exact hk.elim
      · exact hk
  case cmpEnd =>
    simp [eff] at he
    obtain ⟨rfl, rfl⟩ := he
    rcases vals with _ | ⟨v1, vs⟩
    · exact hk.elim
    · refine ⟨fun s1 e => ?_, nofun⟩
      simp only [act, PSt.pop] at e
      split at e <;> cases e <;> exact hk
  case cmpLink =>
    simp [eff] at he
    obtain ⟨rfl, rfl⟩ := he
    rcases vals with _ | ⟨v1, vs⟩
    · exact hk.elim
    · refine ⟨fun s1 e => ?_, nofun⟩
      simp only [act] at e
      cases e
      split
      · rw [p1 _ _ (by show vs.length + 1 ≤ vs.length + 1 + 1; omega)]
        exact hk
      · rw [p1 _ _ (by show vs.length + 1 ≤ vs.length + 1 + 1; omega)]
        exact hk
  all_goals rcases vals with _ | ⟨v1, _ | ⟨v2, _ | ⟨v3, _ | ⟨v4, vs⟩⟩⟩⟩
  all_goals
    simp [eff] at he
    obtain ⟨rfl, rfl⟩ := he
  all_goals first | (simp [KS] at hk; done) | simp only [KS, List.nil_append, List.cons_append] at hk | skip
  all_goals try simp [act, lvalue, PSt.pop, PSt.code, p1, KS, hk]
  all_goals try (refine ⟨fun s1 e => ?_, fun e => ?_⟩)
  all_goals try (repeat' split at e)
  all_goals try first | (subst e; exact hk) | (cases e; done) | (cases e; exact hk)
  all_goals split <;> exact hk

/-- With room for values the parser never takes one that is not there. -/
theorem run_safe : ∀ {n : Nat} {k : List Sym} {s s' : PSt} {ks o}, Seq k ks o → KS ks s.vals → roomy z conv P n k s = true →
    Pda.run z conv P n k s = some (.fault s') → s'.formals.length ≥ z.F
  | 0, _, _, _, _, _, _, _, _, h => by cases h
  | n+1, k, s, s', ks, o, hq, hk, hr, h => by
    have hv := roomy_vals hr
    cases e : step z conv P k s with
    | next k1 s1 =>
      rw [run_next e] at h
      suffices H : ∃ ks', Seq k1 ks' o ∧ KS ks' s1.vals by
        obtain ⟨ks', a, b⟩ := H
        exact run_safe a b (roomy_next hr e) h
      cases hq with
      | nil => cases e
      | @cons x k i o' ks r he hs =>
        cases x with
        | a x =>
          simp only [step] at e
          cases ea : act z conv x s with
          | ok s2 =>
            rw [ea] at e
            cases e
            exact ⟨_, hs, (act_seq he hk hv).1 _ ea⟩
          | «syntax» => rw [ea] at e; cases e
          | fault => rw [ea] at e; cases e
        | t x =>
          simp only [step] at e
          split at e
          · split at e
            · cases e
              simp [eff] at he
              obtain ⟨rfl, rfl⟩ := he
              exact ⟨_, hs, hk⟩
            · cases e
          · cases e
            exact ⟨_, .cons he hs, hk⟩
        | n x =>
          simp only [step] at e
          split at e
          · cases ep : Pda.prod x (hd s.ts).1 with
            | none => rw [ep] at e; cases e
            | some p =>
              rw [ep] at e
              dsimp only at e
              split at e
              · cases e
                exact ⟨_, ((prod_seq ep he).frame ks).append hs, hk⟩
              · cases e
          · cases e
            exact ⟨_, .cons he hs, hk⟩
    | done s1 => rw [run_stop e nofun] at h; cases h
    | «syntax» s1 => rw [run_stop e nofun] at h; cases h
    | oom s1 => rw [run_stop e nofun] at h; cases h
    | fault s1 =>
      rw [run_stop e nofun] at h
      cases h
      cases hq with
      | nil => cases e
      | @cons x k i o' ks r he hs =>
        cases x with
        | a x =>
          simp only [step] at e
          cases ea : act z conv x s with
          | ok s2 => rw [ea] at e; cases e
          | «syntax» => rw [ea] at e; cases e
          | fault =>
            rw [ea] at e
            cases e
            exact ((act_seq he hk hv).2 ea).2
        | t x => simp only [step] at e; repeat' split at e
                 all_goals cases e
        | n x => simp only [step] at e; repeat' split at e
                 all_goals cases e

theorem parse_safe {n ts s} (h : parse z conv P n ts = some (.fault s)) (hr : roomy z conv P n [.n .start] (PSt.init ts) = true) :
    s.formals.length ≥ z.F :=
  run_safe (ks := []) (.cons (i := []) (o := []) (by simp [eff]) .nil) trivial hr h

end Snek.Pda
