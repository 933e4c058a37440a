import Verif.Spec.Depth
import Verif.Proofs.ParseSound
/-! Steps of the table-driven parser. -/
namespace Snek.Pda
open Snek.Vm Snek.Lang Snek.Lex Snek.Parse

variable {z : Sizes} {conv : BitVec 32 → BitVec 8}

/-- The parser without a limit on its stack. -/
inductive Reach (z : Sizes) (conv : BitVec 32 → BitVec 8) : List Sym → PSt → List Sym → PSt → Prop
  | refl {k s} : Reach z conv k s k s
  | look {x k s k' s'} : s.la = false → (∀ a, x ≠ .a a) → Reach z conv (x :: k) s.look k' s' → Reach z conv (x :: k) s k' s'
  | act {a k s s1 k' s'} : act z conv a s = .ok s1 → Reach z conv k s1 k' s' → Reach z conv (.a a :: k) s k' s'
  | tok {x k s k' s'} : s.la = true → x.is (hd s.ts).1 = true → Reach z conv k { s with ts := s.ts.tail, la := false } k' s' →
      Reach z conv (.t x :: k) s k' s'
  | prod {x r k s k' s'} : s.la = true → Pda.prod x (hd s.ts).1 = some r → Reach z conv (r ++ k) s k' s' →
      Reach z conv (.n x :: k) s k' s'

theorem Reach.trans {k s k1 s1 k2 s2} (h : Reach z conv k s k1 s1) (h' : Reach z conv k1 s1 k2 s2) : Reach z conv k s k2 s2 := by
  induction h with
  | refl => exact h'
  | look a b _ ih => exact .look a b (ih h')
  | act a _ ih => exact .act a (ih h')
  | tok a b _ ih => exact .tok a b (ih h')
  | prod a b _ ih => exact .prod a b (ih h')

/-- After reading: the next token has been looked at. -/
def PSt.lk (s : PSt) (ts : List LT) (b : Buf) : PSt := { s with ts := ts, la := true, tv := (hd ts).1, line := (hd ts).2, buf := b }

/-- After matching the token `t`. -/
def PSt.ul (s : PSt) (ts : List LT) (t : LT) (b : Buf) : PSt := { s with ts := ts, la := false, tv := t.1, line := t.2, buf := b }

theorem PSt.ul_look {s ts t b} : (PSt.ul s ts t b).look = s.lk ts b := rfl
theorem PSt.lk_lk {s ts b ts' b'} : (PSt.lk s ts b).lk ts' b' = s.lk ts' b' := rfl
theorem PSt.ul_lk {s ts b ts' t b'} : (PSt.ul s ts t b).lk ts' b' = s.lk ts' b' := rfl

theorem Reach.nt {s : PSt} {x k ts t b k' s'} (h : Reach z conv (.n x :: k) (s.lk ts b) k' s') : Reach z conv (.n x :: k) (s.ul ts t b) k' s' :=
  .look rfl (fun _ => nofun) h

theorem Reach.term {s : PSt} {x k ts t b k' s'} (h : Reach z conv (.t x :: k) (s.lk ts b) k' s') : Reach z conv (.t x :: k) (s.ul ts t b) k' s' :=
  .look rfl (fun _ => nofun) h

theorem Reach.eat {s : PSt} {t : LT} {x k ts b k' s'} (h : x.is t.1 = true) (r : Reach z conv k (s.ul ts t b) k' s') :
    Reach z conv (.t x :: k) (s.lk (t :: ts) b) k' s' :=
  .tok rfl h r

/-- Matching a token that has not been looked at. -/
theorem Reach.eat' {s : PSt} {t : LT} {x k u ts b k' s'} (h : x.is t.1 = true) (r : Reach z conv k (s.ul ts t b) k' s') :
    Reach z conv (.t x :: k) (s.ul (t :: ts) u b) k' s' :=
  .term (.eat h r)

theorem Reach.exp {s : PSt} {x r k ts b k' s'} (h : Pda.prod x (hd ts).1 = some r) (g : Reach z conv (r ++ k) (s.lk ts b) k' s') :
    Reach z conv (.n x :: k) (s.lk ts b) k' s' :=
  .prod rfl h g

/-! ## Values -/

/-- The state with values pushed. -/
def PSt.with (s : PSt) (vs : List Nat) : PSt := { s with vals := vs }

theorem push_room {s : PSt} {v} (h : s.vals.length < z.V) : s.push z v = { s with vals := v :: s.vals } := by
  unfold PSt.push; rw [if_neg (by omega)]

theorem Reach.push {a k s v k' s'} (h : Pda.act z conv a s = .ok (s.push z v)) (room : s.vals.length < z.V)
    (r : Reach z conv k (s.with (v :: s.vals)) k' s') : Reach z conv (.a a :: k) s k' s' :=
  .act (by rw [h, push_room room]; rfl) r

theorem push_code {s : PSt} {v f} : (s.push z v).code f = (s.code f).push z v := by
  unfold PSt.push PSt.code
  dsimp only
  split <;> rfl

theorem push_withU {s : PSt} {vs ts t b v} (h : vs.length < z.V) :
    ((s.with vs).ul ts t b).push z v = (s.with (v :: vs)).ul ts t b := push_room (s := (s.with vs).ul ts t b) h

theorem push_withL {s : PSt} {vs ts b v} (h : vs.length < z.V) :
    ((s.with vs).lk ts b).push z v = (s.with (v :: vs)).lk ts b := push_room (s := (s.with vs).lk ts b) h

/-- An action after a match. -/
theorem Reach.actU {a k k' s' ts t b} {s : PSt} (s1 : PSt) (b' : Buf) (h : Pda.act z conv a (s.ul ts t b) = .ok (s1.ul ts t b'))
    (r : Reach z conv k (s1.ul ts t b') k' s') : Reach z conv (.a a :: k) (s.ul ts t b) k' s' := .act h r

/-- An action after looking at the next token. -/
theorem Reach.actL {a k k' s' ts b} {s : PSt} (s1 : PSt) (b' : Buf) (h : Pda.act z conv a (s.lk ts b) = .ok (s1.lk ts b'))
    (r : Reach z conv k (s1.lk ts b') k' s') : Reach z conv (.a a :: k) (s.lk ts b) k' s' := .act h r

theorem Reach.pushU {a k v k' s' ts t b b'} {s : PSt} (h : Pda.act z conv a (s.ul ts t b) = .ok ((s.ul ts t b').push z v))
    (room : s.vals.length < z.V) (r : Reach z conv k ((s.with (v :: s.vals)).ul ts t b') k' s') :
    Reach z conv (.a a :: k) (s.ul ts t b) k' s' :=
  .act (by rw [h, push_room (s := s.ul ts t b') room]; rfl) r

theorem Reach.pushL {a k v k' s' ts b b'} {s : PSt} (h : Pda.act z conv a (s.lk ts b) = .ok ((s.lk ts b').push z v))
    (room : s.vals.length < z.V) (r : Reach z conv k ((s.with (v :: s.vals)).lk ts b') k' s') :
    Reach z conv (.a a :: k) (s.lk ts b) k' s' :=
  .act (by rw [h, push_room (s := s.lk ts b') room]; rfl) r

theorem add_raw (W) (i : Ins) (b : Buf) : b.add W i = addRaw i.opcode (i.operands W) b := rfl

theorem map_cons {tl : List LT} {a u} (h : tl.map Prod.fst = a :: u) : ∃ n tl', tl = (a, n) :: tl' ∧ tl'.map Prod.fst = u := by
  cases tl with
  | nil => cases h
  | cons x tl => cases h; exact ⟨x.2, tl, rfl, rfl⟩

theorem needE_pos : ∀ e, 1 ≤ needE e := by
  intro e
  cases e
  case num => simp [needE]
  case str => simp [needE]
  case name => simp [needE]
  case build k es => cases k <;> cases es <;> simp [needE] <;> omega
  case index a i => have := needE_pos a; simp only [needE]; omega
  all_goals (simp only [needE]; omega)

/-! ## Productions -/

theorem prod_lvl2 {t : T} (h : t ≠ .kw .not) : prod (.lvl 2) t = some [.n (.lvl 3)] := by
  show prodLvl 2 t = _
  unfold prodLvl; split <;> simp_all
theorem prod_lvl10 {t : T} (h : t ≠ .lnot) (h : t ≠ .bin .minus) (h : t ≠ .bin .plus) : prod (.lvl 10) t = some [.n (.lvl 11)] := by
  show prodLvl 10 t = _
  unfold prodLvl; split <;> simp_all
theorem prod_lvl {l} (h : l ≠ 2) (h : l ≠ 10) (h : l ≠ 13) (h : l ≠ 3) (x) : prod (.lvl l) x = some [.n (.lvl (l+1)), .n (.tail l)] := by
  show prodLvl l x = _
  unfold prodLvl; split <;> simp_all

theorem prod_tail_bin {l t o} (h : binTok l t = some o) :
    prod (.tail l) t = some [.t (.bin l), .a .binopFirst, .n (.lvl (l + 1)), .a .binopSecond, .n (.tail l)] := by
  obtain ⟨rfl, rfl, hp⟩ := binTok_some h
  cases o
  case pow => exact absurd rfl hp
  all_goals rfl

theorem prod_tail_stop {l t} (h : binTok l t = none) (h0 : l = 0 → t ≠ .kw .or) (h1 : l = 1 → t ≠ .kw .and) (h3 : l ≠ 3)
    (h11 : l = 11 → t ≠ .bin .pow) (h12 : l = 12 → t ≠ .os ∧ t ≠ .op) : prod (.tail l) t = some [] := by
  show prodTail l t = _
  unfold prodTail; split <;> simp_all

end Snek.Pda
