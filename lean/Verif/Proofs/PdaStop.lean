import Verif.Proofs.PdaAll
/-! The parser stops. -/
namespace Snek.Pda
open Snek.Vm Snek.Lang Snek.Lex Snek.Parse Spec.Syntax

variable {z : Sizes} {conv : BitVec 32 → BitVec 8} {P : Nat}

/-- Whether the parser can get past the symbol without a token. -/
def skips : Sym → Bool
  | .t _ => false
  | .a _ => true
  | .n .start | .n .optFormals | .n .formalsP | .n .optNamedP | .n .optStats | .n .smallStatsP | .n .delsP | .n .retExpr
  | .n .assignExprP | .n .globals | .n .globalsP | .n .elifStats | .n .whileElse | .n (.tail _) | .n .optSlice | .n .sliceP | .n .optExpr
  | .n .stringsP | .n .optTuple | .n .optTupleP | .n .optActuals | .n .actualP | .n .actualsP | .n .actualsEnd | .n .optEnts | .n .entsP
  | .n .entsEnd => true
  | .n _ => false

/-- How long the parser is busy with the symbol before it needs a token. -/
def busy : Sym → Nat
  | .t _ => 0
  | .a _ => 1
  | .n (.lvl l) => 20 - l
  | .n (.tail _) => 1
  | .n x => match x with
    | .start => 60 | .command => 50 | .optFormals => 10 | .formals => 5 | .formalsP => 1 | .formal => 1 | .optNamedP => 2
    | .optStats => 50 | .stat => 40 | .simpleStat => 35 | .smallStatsP => 1 | .smallStat => 30 | .delsP => 1 | .del => 25
    | .retExpr => 25 | .assignExpr => 25 | .assignExprP => 1 | .globals => 10 | .globalsP => 1 | .global => 1 | .compoundStat => 30
    | .ifStat => 10 | .elifStats => 5 | .ifExpr => 25 | .whileStat => 25 | .whileElse => 1 | .forStat => 10 | .forParams => 25 | .suite => 45
    | .arrayIndex => 25 | .optSlice => 10 | .slice => 5 | .sliceP => 5 | .optExpr => 25 | .stringsP => 1 | .optTuple => 25 | .optTupleP => 5
    | .optActuals => 30 | .actuals => 25 | .actualP => 5 | .actualsP => 1 | .actualsEnd => 25 | .optEnts => 30 | .entsP => 1 | .entsEnd => 30
    | .ent => 25 | _ => 0

/-- The same for a stack. -/
def busyAll : List Sym → Nat
  | [] => 0
  | x :: k => busy x + if skips x then busyAll k else 0

/-- Only the levels there are. -/
def leveled : Sym → Bool
  | .n (.lvl l) => l ≤ 13
  | .n (.tail l) => l ≤ 12
  | _ => true

theorem busyAll_append (r k : List Sym) : busyAll (r ++ k) = busyAll r + if r.all skips then busyAll k else 0 := by
  induction r with
  | nil => simp [busyAll]
  | cons x r ih =>
    simp only [List.cons_append, busyAll, List.all_cons]
    by_cases h : skips x = true
    · simp [h, ih, Nat.add_assoc]
    · simp [h]

theorem binTok_lvl {l t} (h : (binTok l t).isSome = true) : l ≤ 12 := by
  unfold binTok at h
  split at h
  all_goals first | (cases h; done) | (split at h <;> first | omega | cases h)

theorem prodLvl_busy {l t r} (hl : l ≤ 13) (h : prodLvl l t = some r) :
    busyAll r < 20 - l ∧ r.all skips = false ∧ r.all leveled = true := by
  unfold prodLvl at h
  split at h <;> cases h
  all_goals simp [busyAll, busy, skips, leveled]
  rename_i h13 _ _ _ _ _ _ _ _ _ _
  have : l ≠ 13 := h13
  omega

theorem prodTail_busy {l t r} (h : prodTail l t = some r) :
    busyAll r < 1 ∧ r.all leveled = true := by
  unfold prodTail at h
  split at h
  all_goals first
    | (cases h; simp [busyAll, busy, skips, leveled]; done)
    | (split at h <;> cases h <;> simp [busyAll, busy, skips, leveled])
  exact binTok_lvl ‹_›

theorem prod_busy {x t r} (hx : leveled (.n x) = true) (h : Pda.prod x t = some r) :
    busyAll r < busy (.n x) ∧ (skips (.n x) = false → r.all skips = false) ∧ r.all leveled = true := by
  unfold Pda.prod at h
  split at h
  all_goals first
    | (cases h; done)
    | (cases h; simp [busyAll, busy, skips, leveled]; done)
    | (obtain ⟨a, b, c⟩ := prodLvl_busy (by simpa [leveled] using hx) h; exact ⟨a, fun _ => b, c⟩)
    | (obtain ⟨a, b⟩ := prodTail_busy h; exact ⟨a, nofun, b⟩)
    | (split at h <;> cases h <;> simp [busyAll, busy, skips, leveled])

theorem act_ts {a} {s s1 : PSt} (h : act z conv a s = .ok s1) : s1.ts = s.ts ∧ s1.la = s.la := by
  have hp : ∀ (s : PSt) v, (s.push z v).ts = s.ts ∧ (s.push z v).la = s.la := fun s v => by unfold PSt.push; split <;> exact ⟨rfl, rfl⟩
  cases a <;> simp only [act, lvalue, PSt.pop] at h
  all_goals repeat' split at h
  all_goals first | (cases h; done) | skip
  all_goals cases h
  all_goals simp [hp, PSt.code]

/-- Every step brings the parser nearer to its end. -/
theorem step_less {k k1 : List Sym} {s s1 : PSt} (h : step z conv P k s = .next k1 s1) (hk : k.all leveled = true) :
    k1.all leveled = true ∧
      (s1.ts.length < s.ts.length ∨ (s1.ts = s.ts ∧ (busyAll k1 < busyAll k ∨ (k1 = k ∧ s.la = false ∧ s1.la = true)))) := by
  cases k with
  | nil => cases h
  | cons x k =>
    rw [List.all_cons, Bool.and_eq_true] at hk
    cases x with
    | a x =>
      simp only [step] at h
      cases ea : act z conv x s with
      | ok s2 =>
        rw [ea] at h
        cases h
        refine ⟨hk.2, .inr ⟨(act_ts ea).1, .inl ?_⟩⟩
        simp [busyAll, busy, skips]
      | «syntax» => rw [ea] at h; cases h
      | fault => rw [ea] at h; cases h
    | t x =>
      simp only [step] at h
      split at h
      · split at h
        · rename_i h2
          cases h
          refine ⟨hk.2, .inl ?_⟩
          cases hs : s.ts with
          | nil => rw [hs] at h2; exact (is_eof h2).elim
          | cons t ts => simp
        · cases h
      · rename_i h1
        cases h
        exact ⟨by rw [List.all_cons, Bool.and_eq_true]; exact hk, .inr ⟨rfl, .inr ⟨rfl, by simpa using h1, rfl⟩⟩⟩
    | n x =>
      simp only [step] at h
      split at h
      · cases ep : Pda.prod x (hd s.ts).1 with
        | none => rw [ep] at h; cases h
        | some p =>
          rw [ep] at h
          dsimp only at h
          split at h
          · cases h
            obtain ⟨b1, b2, b3⟩ := prod_busy hk.1 ep
            refine ⟨by rw [List.all_append, Bool.and_eq_true]; exact ⟨b3, hk.2⟩, .inr ⟨rfl, .inl ?_⟩⟩
            rw [busyAll_append]
            cases hsk : skips (.n x) with
            | false => rw [b2 hsk]; simp [busyAll, hsk, b1]
            | true =>
              simp only [busyAll, hsk, if_true]
              split <;> omega
          · cases h
      · rename_i h1
        cases h
        exact ⟨by rw [List.all_cons, Bool.and_eq_true]; exact hk, .inr ⟨rfl, .inr ⟨rfl, by simpa using h1, rfl⟩⟩⟩

theorem stops_lex (a : Nat) : ∀ (b : Nat) (la : Bool) (k : List Sym) (s : PSt), s.ts.length = a → busyAll k = b → s.la = la →
    k.all leveled = true → ∃ n r, Pda.run z conv P n k s = some r := by
  induction a using Nat.strongRecOn with
  | _ a iha =>
  intro b
  induction b using Nat.strongRecOn with
  | _ b ihb =>
  have base : ∀ (k : List Sym) (s : PSt), s.ts.length = a → busyAll k = b → k.all leveled = true →
      (∀ k1 s1, step z conv P k s = .next k1 s1 → k1 = k → s1.la = true → s1.ts.length = a → ∃ n r, Pda.run z conv P n k1 s1 = some r) →
      ∃ n r, Pda.run z conv P n k s = some r := by
    intro k s ha hb hk hla
    cases e : step z conv P k s with
    | next k1 s1 =>
      obtain ⟨hk1, h | ⟨h, h2 | ⟨h2, h3, h4⟩⟩⟩ := step_less e hk
      · obtain ⟨n, r, hn⟩ := iha s1.ts.length (by omega) _ s1.la k1 s1 rfl rfl rfl hk1
        exact ⟨n + 1, r, (run_next e).trans hn⟩
      · obtain ⟨n, r, hn⟩ := ihb (busyAll k1) (by omega) s1.la k1 s1 (by rw [h]; exact ha) rfl rfl hk1
        exact ⟨n + 1, r, (run_next e).trans hn⟩
      · obtain ⟨n, r, hn⟩ := hla k1 s1 e h2 h4 (by rw [h]; exact ha)
        exact ⟨n + 1, r, (run_next e).trans hn⟩
    | done s1 => exact ⟨1, _, run_stop e nofun⟩
    | «syntax» s1 => exact ⟨1, _, run_stop e nofun⟩
    | oom s1 => exact ⟨1, _, run_stop e nofun⟩
    | fault s1 => exact ⟨1, _, run_stop e nofun⟩
  have hT : ∀ (k : List Sym) (s : PSt), s.ts.length = a → busyAll k = b → s.la = true → k.all leveled = true →
      ∃ n r, Pda.run z conv P n k s = some r := by
    intro k s ha hb hl hk
    refine base k s ha hb hk fun k1 s1 e h1 h2 h3 => ?_
    obtain ⟨_, h | ⟨h, h2 | ⟨h2, h3, h4⟩⟩⟩ := step_less e hk
    · omega
    · subst h1; omega
    · rw [hl] at h3; cases h3
  intro la k s ha hb _ hk
  refine base k s ha hb hk fun k1 s1 e h1 h2 h3 => ?_
  subst h1
  exact hT k1 s1 h3 hb h2 hk

theorem parse_stops (ts : List LT) : ∃ n r, parse z conv P n ts = some r :=
  stops_lex _ _ _ _ _ rfl rfl rfl rfl

end Snek.Pda
