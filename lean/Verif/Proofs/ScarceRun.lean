import Verif.Proofs.Scarce
/-! # What the parser does after memory was refused -/
namespace Snek.Scarce
open Snek.Vm Snek.Lang Snek.Lex Snek.Parse Snek.Pda

variable {z : Sizes} {conv : BitVec 32 → BitVec 8} {g : Nat → Bool} {junk : MSt → Nat → UInt8}

/-- The code begins with a whole line instruction, which is not the previous instruction or is the only one. -/
structure LS (W : Nat) (b : Buf) : Prop where
  first : ∃ c r, b.bytes = c :: r ∧ c.toNat % 128 = 66
  long : 1 + W ≤ b.bytes.length
  prev : b.prev = 0 ∨ 1 + W ≤ b.prev
  prevPrev : b.prevPrev = 0 ∨ 1 + W ≤ b.prevPrev

/-- The flag is set exactly when a request was refused. -/
def J (g : Nat → Bool) (m : MSt) : Prop := m.fail = true ↔ ∃ i, i < m.asks ∧ g i = false

/-- Outside of the block is written only when a request was refused. -/
def K (m : MSt) : Prop := m.stray = true → m.fail = true

theorem J.grant {m m' : MSt} (h : J g m) (ha : m'.asks = m.asks + 1) (hf : m'.fail = m.fail) (hg : g m.asks = true) : J g m' := by
  unfold J at h ⊢
  rw [ha, hf, h]
  constructor
  · rintro ⟨i, a, b⟩; exact ⟨i, by omega, b⟩
  · rintro ⟨i, a, b⟩
    by_cases e : i = m.asks
    · rw [e, hg] at b; cases b
    · exact ⟨i, by omega, b⟩

theorem J.refuse {m' : MSt} (i : Nat) (ha : i < m'.asks) (hf : m'.fail = true) (hg : g i = false) : J g m' :=
  ⟨fun _ => ⟨i, ha, hg⟩, fun _ => hf⟩

/-- What an action keeps. -/
structure Fr (z : Sizes) (g : Nat → Bool) (m m' : MSt) : Prop where
  ts : m'.s.ts = m.s.ts
  la : m'.s.la = m.s.la
  out : m'.s.out = m.s.out
  fail : m.fail = true → m'.fail = true
  lost : m'.lost = false → m.lost = false
  asks : J g m → J g m'
  stray : K m → K m'
  ls : LS z.W m.s.buf → LS z.W m'.s.buf

theorem Fr.refl (m : MSt) : Fr z g m m := ⟨rfl, rfl, rfl, id, id, id, id, id⟩

theorem Fr.trans {a b c : MSt} (f : Fr z g a b) (h : Fr z g b c) : Fr z g a c :=
  ⟨h.ts.trans f.ts, h.la.trans f.la, h.out.trans f.out, fun x => h.fail (f.fail x), fun x => f.lost (h.lost x), fun x => h.asks (f.asks x), fun x => h.stray (f.stray x), fun x => h.ls (f.ls x)⟩

/-- A longer code with the same beginning. -/
theorem LS.same {W} {b b' : Buf} (h : LS W b) (hb : ∃ c c', b.bytes.head? = some c ∧ b'.bytes.head? = some c' ∧ c'.toNat % 128 = c.toNat % 128)
    (hl : b.bytes.length ≤ b'.bytes.length) (hp : b'.prev = b.prev) (hpp : b'.prevPrev = b.prevPrev) : LS W b' := by
  obtain ⟨c, r, e, e2⟩ := h.first
  obtain ⟨d, d', h1, h2, h3⟩ := hb
  rw [e] at h1
  cases h1
  refine ⟨?_, by have := h.long; omega, by rw [hp]; exact h.prev, by rw [hpp]; exact h.prevPrev⟩
  cases e' : b'.bytes with
  | nil => rw [e'] at h2; cases h2
  | cons x y => rw [e'] at h2; cases h2; exact ⟨_, _, rfl, by omega⟩

theorem fr_ext {m : MSt} {l} : Fr z g m (m.ext g l) := by
  have key : LS z.W m.s.buf → LS z.W { m.s.buf with bytes := m.s.buf.bytes ++ l } := fun h => by
    obtain ⟨c, r, e, e2⟩ := h.first
    exact h.same ⟨c, c, by rw [e]; rfl, by rw [e]; rfl, rfl⟩ (by simp) rfl rfl
  unfold MSt.ext
  split
  · split
    · rename_i e
      exact ⟨rfl, rfl, rfl, id, id, fun h => h.grant rfl rfl e, id, key⟩
    · rename_i e
      exact ⟨rfl, rfl, rfl, fun _ => rfl, id, fun _ => J.refuse m.asks (by simp [MSt.refused]) rfl (by simpa using e), fun _ _ => rfl, id⟩
  · exact ⟨rfl, rfl, rfl, id, id, id, id, key⟩

theorem fr_op {m : MSt} {o} : Fr z g m (m.op g o) := by
  have : Fr z g m (m.code fun b => ⟨b.bytes, b.bytes.length, b.prev⟩) :=
    ⟨rfl, rfl, rfl, id, id, id, id, fun h => ⟨h.first, h.long, .inr h.long, h.prev⟩⟩
  exact this.trans fr_ext

theorem fr_fold (args : List (List UInt8)) : ∀ {m : MSt}, Fr z g m (args.foldl (fun m l => m.ext g l) m) := by
  induction args with
  | nil => exact Fr.refl _
  | cons a as ih => exact fr_ext.trans ih

theorem fr_emit {m : MSt} {o args} : Fr z g m (m.emit g o args) := fr_op.trans (fr_fold args)
theorem fr_number {m : MSt} {u} : Fr z g m (m.number z conv g u) := fr_emit
theorem fr_forward {m : MSt} {k o} : Fr z g m (m.forward z g k o) := fr_emit

theorem fr_push {m : MSt} {v} : Fr z g m (m.push z v) := by
  have hp : (m.s.push z v).ts = m.s.ts ∧ (m.s.push z v).la = m.s.la ∧ (m.s.push z v).out = m.s.out ∧ (m.s.push z v).buf = m.s.buf := by
    unfold PSt.push; split <;> exact ⟨rfl, rfl, rfl, rfl⟩
  refine ⟨hp.1, hp.2.1, hp.2.2.1, id, fun h => ?_, id, id, fun h => by rw [push_s, hp.2.2.2]; exact h⟩
  simp only [MSt.push, Bool.or_eq_false_iff] at h
  exact h.1

theorem fr_setPush {m : MSt} {off} : Fr z g m (m.setPush off) := by
  refine ⟨rfl, rfl, rfl, id, id, id, fun h hs => ?_, fun h => ?_⟩
  · simp only [MSt.setPush, Bool.or_eq_true, Bool.and_eq_true] at hs
    exact hs.elim h fun x => x.1
  obtain ⟨c, r, e, e2⟩ := h.first
  show LS z.W (Buf.setPush off m.s.buf)
  cases off with
  | zero =>
    refine h.same ⟨c, c ||| 0x80, by rw [e]; rfl, ?_, ?_⟩ (by simp [Buf.setPush]) rfl rfl
    · simp [Buf.setPush, e]
    · rw [UInt8.toNat_or]
      have : ∀ n, (n ||| (0x80 : UInt8).toNat) % 128 = n % 128 := fun n => by
        show (n ||| 2 ^ 7) % 2 ^ 7 = n % 2 ^ 7
        rw [Nat.or_mod_two_pow]
        simp
      exact this _
  | succ k => exact h.same ⟨c, c, by rw [e]; rfl, by simp [Buf.setPush, e], rfl⟩ (by simp [Buf.setPush]) rfl rfl

theorem fr_pushPrev {m : MSt} : Fr z g m m.pushPrev := fr_setPush

theorem set_head (l : List UInt8) (off : Nat) (n : List Nat) : ∀ c : List UInt8, 1 ≤ off →
    (n.foldl (fun c i => c.set (off + i) (l[i]?.getD 0)) c).head? = c.head? ∧
    (n.foldl (fun c i => c.set (off + i) (l[i]?.getD 0)) c).length = c.length := by
  induction n with
  | nil => exact fun c _ => ⟨rfl, rfl⟩
  | cons a n ih =>
    intro c h
    rw [List.foldl_cons]
    obtain ⟨h1, h2⟩ := ih (c.set (off + a) (l[a]?.getD 0)) h
    rw [h1, h2]
    refine ⟨?_, by simp⟩
    cases c with
    | nil => rfl
    | cons x c =>
      rw [show off + a = (off + a - 1) + 1 from by omega]
      rfl

theorem fr_poke {m : MSt} {off l} (h : LS z.W m.s.buf → 1 ≤ off) : Fr z g m (m.poke off l) := by
  unfold MSt.poke
  split
  · rename_i hf
    refine ⟨rfl, rfl, rfl, id, id, id, fun _ _ => hf, fun hl => ?_⟩
    obtain ⟨c, r, e, e2⟩ := hl.first
    obtain ⟨h1, h2⟩ := set_head l off (List.range l.length) m.s.buf.bytes (h hl)
    exact hl.same ⟨c, c, by rw [e]; rfl, h1.trans (by rw [e]; rfl), rfl⟩ (Nat.le_of_eq h2.symm) rfl rfl
  · refine ⟨rfl, rfl, rfl, id, id, id, id, fun hl => ?_⟩
    obtain ⟨c, r, e, e2⟩ := hl.first
    have h := h hl
    refine hl.same ⟨c, c, by rw [e]; rfl, ?_, rfl⟩ ?_ rfl rfl
    · show (overwrite m.s.buf.bytes off l).head? = some c
      rw [overwrite, e]
      obtain ⟨k, rfl⟩ : ∃ k, off = k + 1 := ⟨off - 1, by omega⟩
      rfl
    · show _ ≤ (overwrite m.s.buf.bytes off l).length
      simp only [overwrite, List.length_append, List.length_take, List.length_drop]
      omega

theorem fr_patchBranch {m : MSt} {a b} : Fr z g m (m.patchBranch z a b) := fr_poke fun _ => by omega

theorem fr_string {m : MSt} {o} : Fr z g m (m.string z g o) := by
  unfold MSt.string
  exact fr_emit.trans (fr_poke fun _ => by omega)

theorem first_byte {m : MSt} (h : LS z.W m.s.buf) : (m.byte junk 0).toNat % 128 = 66 := by
  obtain ⟨c, r, e, e2⟩ := h.first
  unfold MSt.byte
  rw [e]
  exact e2

theorem fr_patchOut {stop kind target} : ∀ (k ip : Nat) (m : MSt), stop - ip ≤ k → Fr z g m (m.patchOut z junk ip stop kind target) := by
  intro k
  induction k with
  | zero =>
    intro ip m h
    unfold MSt.patchOut
    rw [if_neg (by omega)]
    exact Fr.refl m
  | succ k ih =>
    intro ip m h
    unfold MSt.patchOut
    split
    · simp only
      refine Fr.trans ?_ (ih _ _ (by omega))
      split
      · rename_i e
        refine (fr_poke fun hl => ?_).trans (fr_poke fun _ => by omega)
        cases ip with
        | zero => rw [first_byte hl] at e; omega
        | succ n => omega
      · exact Fr.refl m
    · exact Fr.refl m

theorem patchForward_head {W stop kind target} : ∀ (k ip : Nat) (C : List UInt8) (c : UInt8), stop - ip ≤ k → C.head? = some c → c.toNat % 128 = 66 →
    (patchForward W C ip stop kind target).head? = some c ∧ C.length ≤ (patchForward W C ip stop kind target).length := by
  intro k
  induction k with
  | zero =>
    intro ip C c h hc h66
    unfold patchForward
    rw [if_neg (by omega)]
    exact ⟨hc, Nat.le_refl _⟩
  | succ k ih =>
    intro ip C c h hc h66
    unfold patchForward
    split
    · simp only
      have key : ∀ C', C'.head? = some c ∧ C.length ≤ C'.length →
          (patchForward W C' (ip + 1 + operandSize W ((C[ip]?.getD 0).toNat % 128)) stop kind target).head? = some c ∧
          C.length ≤ (patchForward W C' (ip + 1 + operandSize W ((C[ip]?.getD 0).toNat % 128)) stop kind target).length := by
        intro C' h'
        obtain ⟨a, b⟩ := ih (ip + 1 + operandSize W ((C[ip]?.getD 0).toNat % 128)) C' c (by omega) h'.1 h66
        exact ⟨a, by omega⟩
      refine key _ ?_
      split
      · rename_i e
        cases C with
        | nil => cases hc
        | cons x r =>
          cases hc
          cases ip with
          | zero => simp at e; omega
          | succ n =>
            refine ⟨rfl, ?_⟩
            simp only [overwrite, List.length_append, List.length_take, List.length_drop, List.length_set]
            omega
      · exact ⟨hc, Nat.le_refl _⟩
    · exact ⟨hc, Nat.le_refl _⟩

theorem fr_patchFwd {m : MSt} {a b c d} : Fr z g m (m.patchFwd z junk a b c d) := by
  unfold MSt.patchFwd
  split
  · exact fr_patchOut _ _ _ (Nat.le_refl _)
  · refine ⟨rfl, rfl, rfl, id, id, id, id, fun hl => ?_⟩
    obtain ⟨x, r, e, e2⟩ := hl.first
    obtain ⟨h1, h2⟩ := patchForward_head (W := z.W) (stop := b) (kind := c) (target := d) _ a m.s.buf.bytes x (Nat.le_refl _) (by rw [e]; rfl) e2
    exact hl.same ⟨x, x, by rw [e]; rfl, h1, rfl⟩ h2 rfl rfl

theorem fr_deletePrev {m : MSt} (h : LS z.W m.s.buf → 1 + z.W ≤ m.s.buf.prev) : Fr z g m m.deletePrev := by
  refine ⟨rfl, rfl, rfl, id, id, id, id, fun hl => ?_⟩
  have h := h hl
  obtain ⟨c, r, e, e2⟩ := hl.first
  have h3 := hl.long
  refine ⟨⟨c, r.take (m.s.buf.prev - 1), ?_, e2⟩, ?_, hl.prevPrev, hl.prevPrev⟩
  · show m.s.buf.bytes.take m.s.buf.prev = _
    rw [e]
    obtain ⟨k, hk⟩ : ∃ k, m.s.buf.prev = k + 1 := ⟨m.s.buf.prev - 1, by omega⟩
    rw [hk]
    rfl
  · show _ ≤ (m.s.buf.bytes.take m.s.buf.prev).length
    rw [List.length_take]
    omega

theorem Fr.deletePrev {m m1 : MSt} (f : Fr z g m m1) (h : LS z.W m.s.buf → 1 + z.W ≤ m1.s.buf.prev) : Fr z g m m1.deletePrev :=
  ⟨f.ts, f.la, f.out, f.fail, f.lost, f.asks, f.stray, fun hl => (fr_deletePrev (g := g) fun _ => h hl).ls (f.ls hl)⟩

theorem fr_upd {m : MSt} (f : PSt → PSt) (h1 : (f m.s).ts = m.s.ts) (h2 : (f m.s).la = m.s.la) (h3 : (f m.s).out = m.s.out)
    (h4 : (f m.s).buf = m.s.buf) : Fr z g m { m with s := f m.s } := ⟨h1, h2, h3, id, id, id, id, fun h => by show LS _ (f m.s).buf; rw [h4]; exact h⟩

theorem pop_frame {m m' : MSt} {k} (h : m.pop k = .ok m') (H : ∀ v m1, k v m1 = .ok m' → Fr z g m1 m') : Fr z g m m' := by
  unfold MSt.pop at h
  split at h
  · cases h
  · rename_i v vs e
    exact Fr.trans (fr_upd (fun s => { s with vals := vs }) rfl rfl rfl rfl) (H v _ h)

theorem fr_ok {m m1 m' : MSt} (h : MRes.ok m1 = .ok m') (f : Fr z g m m1) : Fr z g m m' := by cases h; exact f

theorem lvalue_frame {op : Nat} {m m' : MSt} (h : lvalueM z junk op m = .ok m') : Fr z g m m' := by
  unfold lvalueM at h
  simp only at h
  have hp : LS z.W m.s.buf → (m.byte junk m.s.buf.prev).toNat % 128 ≠ 66 → 1 + z.W ≤ m.s.buf.prev := fun hl hc => by
    rcases hl.prev with e | e
    · rw [e, first_byte hl] at hc; exact absurd rfl hc
    · exact e
  have hb : ∀ (m : MSt) v w, ((m.push z v).push z w).s.buf = m.s.buf := fun m v w => by
    simp only [push_s, PSt.push]
    (repeat' split) <;> rfl
  split at h
  · rename_i e
    refine fr_ok h ((fr_push.trans fr_push).deletePrev fun hl => ?_)
    rw [hb]
    exact hp hl (by rw [e]; omega)
  · split at h
    · rename_i e
      have h1 : Fr z g m (if op ≠ 56 then m.setPush m.s.buf.prevPrev else m) := by split; exact fr_setPush; exact Fr.refl m
      refine fr_ok h ((h1.trans (fr_push.trans fr_push)).deletePrev fun hl => ?_)
      rw [hb]
      have e1 : (if op ≠ 56 then m.setPush m.s.buf.prevPrev else m).s.buf.prev = m.s.buf.prev := by split <;> rfl
      rw [e1]
      exact hp hl (by rw [e]; omega)
    · cases h

/-- What every action but the last of a command keeps. -/
theorem act_frame {x : Act} {m m' : MSt} (h : actM z conv g junk x m = .ok m') (h1 : x ≠ .finish) (h2 : x ≠ .defEnd)
    (h3 : x = .cmpLink → LS z.W m.s.buf → m.s.vals.head? = some 0 ∨ 1 + z.W ≤ m.s.buf.prev) : Fr z g m m' := by
  cases x
  case finish => exact absurd rfl h1
  case defEnd => exact absurd rfl h2
  case delLvalue => exact lvalue_frame h
  case lvalue => exact lvalue_frame h
  case cmpLink =>
    simp only [actM] at h
    split at h
    · cases h
    · rename_i off vs e
      refine fr_ok h (Fr.trans ?_ (fr_pushPrev.trans fr_push))
      split
      · rename_i ho
        refine Fr.trans ((Fr.refl m).deletePrev fun hl => ?_) fr_forward
        rcases h3 rfl hl with x | x
        · rw [e] at x
          cases x
          exact absurd rfl ho
        · exact x
      · exact fr_upd (fun s => { s with vals := s.buf.prev :: vs }) rfl rfl rfl rfl
  case argName =>
    simp only [actM] at h
    split at h
    · cases h
    · rename_i e
      refine fr_ok h (Fr.trans ((Fr.refl m).deletePrev fun hl => ?_) (fr_number.trans fr_pushPrev))
      rcases hl.prev with e' | e'
      · have := first_byte (junk := junk) hl
        rw [e'] at e
        omega
      · exact e'
  all_goals simp only [actM] at h
  case formal => split at h; cases h; exact fr_ok h (fr_upd (fun s => { s with formals := s.formals ++ [tokId s.tv] }) rfl rfl rfl rfl)
  case notNamed => split at h; cases h; exact fr_ok h (Fr.refl m)
  case forEnd => exact fr_ok h (fr_upd (fun s => { s with fd := s.fd - 1 }) rfl rfl rfl rfl)
  case defName => exact fr_ok h ((fr_upd (fun s => { s with formals := [], nnamed := 0 }) rfl rfl rfl rfl).trans fr_push)
  case named => exact fr_ok h ((fr_upd (fun s => { s with nnamed := s.nnamed + 1 }) rfl rfl rfl rfl).trans fr_emit)
  case ifEnd => exact pop_frame h fun _ _ h => pop_frame h fun _ _ h => fr_ok h (fr_patchBranch.trans fr_patchFwd)
  case elifEnd => exact pop_frame h fun _ _ h => pop_frame h fun _ _ h => fr_ok h fr_patchBranch
  case opLvalue => exact pop_frame h fun _ _ h => pop_frame h fun _ _ h => fr_ok h fr_emit
  case patchLoop =>
    exact pop_frame h fun _ _ h => pop_frame h fun _ _ h => pop_frame h fun _ _ h => pop_frame h fun _ _ h =>
      fr_ok h (fr_patchBranch.trans (fr_patchBranch.trans (fr_patchFwd.trans fr_patchFwd)))
  case rangeEnd =>
    refine pop_frame h fun _ _ h => ?_
    split at h
    · cases h
    · exact pop_frame h fun _ _ h => fr_ok h (fr_emit.trans (fr_emit.trans (fr_push.trans (fr_push.trans
        (fr_upd (fun s => { s with fd := s.fd + 1 }) rfl rfl rfl rfl)))))
  case inEnd =>
    exact pop_frame h fun _ _ h => fr_ok h (fr_emit.trans (fr_number.trans (fr_emit.trans (fr_emit.trans (fr_push.trans (fr_push.trans
        (fr_upd (fun s => { s with fd := s.fd + 1 }) rfl rfl rfl rfl)))))))
  case exdent =>
    refine pop_frame h fun _ _ h => ?_
    split at h
    · cases h
    · exact fr_ok h (Fr.refl _)
  case shortSecond => exact pop_frame h fun _ _ h => fr_ok h (fr_patchBranch.trans fr_emit)
  case unopSecond => exact pop_frame h fun _ _ h => fr_ok h fr_emit
  case binopSecond => exact pop_frame h fun _ _ h => fr_ok h fr_emit
  case call => exact pop_frame h fun _ _ h => fr_ok h fr_emit
  case dict => exact pop_frame h fun _ _ h => fr_ok h fr_emit
  case cmpEnd =>
    refine pop_frame h fun _ _ h => fr_ok h ?_
    split
    · exact fr_patchFwd.trans fr_emit
    · exact Fr.refl _
  case index =>
    refine pop_frame h fun _ _ h => ?_
    split at h
    · exact fr_pushPrev.trans (pop_frame h fun _ _ h => pop_frame h fun _ _ h => pop_frame h fun _ _ h => fr_ok h fr_emit)
    · exact fr_ok h fr_emit
  case tuple =>
    refine pop_frame h fun _ _ h => fr_ok h ?_
    split
    · exact fr_emit
    · exact Fr.refl _
  case list =>
    refine pop_frame h fun _ _ h => ?_
    split at h
    · cases h
    · exact fr_ok h fr_emit
  case tupleP =>
    refine pop_frame h fun _ _ h => ?_
    split at h
    · cases h
    · exact fr_ok h fr_push
  case argPos =>
    refine pop_frame h fun _ _ h => ?_
    split at h
    · cases h
    · exact fr_ok h (fr_push.trans fr_pushPrev)
  case argNamed => exact pop_frame h fun _ _ h => fr_ok h (fr_push.trans fr_pushPrev)
  case entPart => exact pop_frame h fun _ _ h => fr_ok h (fr_push.trans fr_pushPrev)
  case number =>
    refine fr_ok h ?_
    split
    · exact fr_number
    · exact Fr.refl _
  case string =>
    refine fr_ok h ?_
    split
    · exact fr_string
    · exact Fr.refl _
  case stringCat =>
    refine fr_ok h ?_
    split
    · exact fr_pushPrev.trans (fr_string.trans fr_emit)
    · exact Fr.refl _
  case elif => exact fr_ok h (fr_emit.trans (fr_forward.trans fr_push))
  case elseB => exact fr_ok h (fr_forward.trans fr_push)
  case ifExpr => exact fr_ok h (fr_emit.trans fr_push)
  case whileTest => exact fr_ok h (fr_emit.trans fr_push)
  case boolBranch => exact fr_ok h (fr_emit.trans fr_push)
  case loopEnd => exact fr_ok h (fr_emit.trans (fr_push.trans fr_push))
  case binopFirst => exact fr_ok h (fr_pushPrev.trans fr_push)
  case optExpr => exact fr_ok h (fr_push.trans fr_pushPrev)
  case setPush => exact fr_ok h fr_pushPrev
  all_goals first | exact fr_ok h fr_push | exact fr_ok h fr_emit | exact fr_ok h fr_forward

end Snek.Scarce
