import Verif.Model.Scarce
import Verif.Proofs.PdaStop
import Verif.Proofs.PdaAll
/-! # Until memory is refused the parser is that of Model/Pda -/
namespace Snek.Scarce
open Snek.Vm Snek.Lang Snek.Lex Snek.Parse Snek.Pda

variable {z : Sizes} {conv : BitVec 32 → BitVec 8} {g : Nat → Bool} {junk : MSt → Nat → UInt8}

theorem ext_keep {m : MSt} {l} (h : (m.ext g l).fail = false) : m.fail = false := by
  unfold MSt.ext at h
  split at h
  · split at h
    · exact h
    · cases h
  · exact h

theorem ext_s {m : MSt} {l} (h : (m.ext g l).fail = false) : (m.ext g l).s = m.s.code fun b => { b with bytes := b.bytes ++ l } := by
  unfold MSt.ext at h ⊢
  split at h
  · rename_i e
    rw [if_pos e]
    split at h
    · rename_i e
      rw [if_pos e]
      rfl
    · cases h
  · rename_i e
    rw [if_neg e]
    rfl

theorem op_keep {m : MSt} {o} (h : (m.op g o).fail = false) : m.fail = false := ext_keep (m := m.code _) h

theorem foldl_keep (args : List (List UInt8)) : ∀ {m : MSt}, (args.foldl (fun m l => m.ext g l) m).fail = false → m.fail = false := by
  induction args with
  | nil => exact id
  | cons a as ih => exact fun h => ext_keep (ih h)

theorem foldl_s (args : List (List UInt8)) : ∀ {m : MSt}, (args.foldl (fun m l => m.ext g l) m).fail = false →
    (args.foldl (fun m l => m.ext g l) m).s = m.s.code fun b => { b with bytes := b.bytes ++ args.flatten } := by
  induction args with
  | nil => intro m _; simp [PSt.code]
  | cons a as ih =>
    intro m h
    rw [List.foldl_cons, ih h, ext_s (foldl_keep as h)]
    simp [PSt.code]

theorem emit_keep {m : MSt} {o args} (h : (m.emit g o args).fail = false) : m.fail = false := op_keep (foldl_keep args h)

theorem emit_s {m : MSt} {o args} (h : (m.emit g o args).fail = false) : (m.emit g o args).s = m.s.code (addRaw o args.flatten) := by
  show (args.foldl (fun m l => m.ext g l) (m.op g o)).s = _
  rw [foldl_s args h, MSt.op, ext_s (foldl_keep args h)]
  simp [PSt.code, MSt.code, addRaw]

theorem number_keep {m : MSt} {u} (h : (m.number z conv g u).fail = false) : m.fail = false := emit_keep h

theorem addIns (i : Ins) (b : Buf) : b.add z.W i = addRaw i.opcode (i.operands z.W) b := by
  simp [Buf.add, addRaw, encode]

theorem number_s {m : MSt} {u} (h : (m.number z conv g u).fail = false) :
    (m.number z conv g u).s = m.s.code fun b => b.add z.W (numIns conv u) := by
  show (m.emit g _ _).s = _
  rw [emit_s h]
  simp only [addIns, List.flatten_cons, List.flatten_nil, List.append_nil]

theorem forward_keep {m : MSt} {k o} (h : (m.forward z g k o).fail = false) : m.fail = false := emit_keep h

theorem forward_s {m : MSt} {k o} (h : (m.forward z g k o).fail = false) :
    (m.forward z g k o).s = m.s.code fun b => b.addForwardOp z.W k o := by
  show (m.emit g _ _).s = _
  rw [emit_s h]
  simp only [Buf.addForwardOp, addIns, List.flatten_cons, List.flatten_nil, List.append_nil]
  rfl

@[simp] theorem poke_fail {m : MSt} {off l} : (m.poke off l).fail = m.fail := by
  unfold MSt.poke; split <;> rfl

theorem poke_s {m : MSt} {off l} (h : m.fail = false) : (m.poke off l).s = m.s.code fun b => { b with bytes := overwrite b.bytes off l } := by
  unfold MSt.poke; rw [if_neg (by simp [h])]; rfl

@[simp] theorem setPush_fail {m : MSt} {off} : (m.setPush off).fail = m.fail := rfl
@[simp] theorem setPush_s {m : MSt} {off} : (m.setPush off).s = m.s.code (Buf.setPush off) := rfl
@[simp] theorem pushPrev_fail {m : MSt} : m.pushPrev.fail = m.fail := rfl
@[simp] theorem pushPrev_s {m : MSt} : m.pushPrev.s = m.s.code Buf.pushPrev := rfl
@[simp] theorem push_fail {m : MSt} {v} : (m.push z v).fail = m.fail := rfl
@[simp] theorem push_s {m : MSt} {v} : (m.push z v).s = m.s.push z v := rfl
@[simp] theorem deletePrev_fail {m : MSt} : m.deletePrev.fail = m.fail := rfl
@[simp] theorem deletePrev_s {m : MSt} : m.deletePrev.s = m.s.code Buf.deletePrev := rfl
@[simp] theorem reset_fail {m : MSt} : m.reset.fail = m.fail := rfl
@[simp] theorem patchBranch_fail {m : MSt} {a b} : (m.patchBranch z a b).fail = m.fail := poke_fail

theorem patchBranch_s {m : MSt} {a b} (h : m.fail = false) : (m.patchBranch z a b).s = m.s.code (Buf.patchBranch z.W a b) := poke_s h

theorem patchOut_fail {stop kind target} : ∀ (k ip : Nat) (m : MSt), stop - ip ≤ k → (m.patchOut z junk ip stop kind target).fail = m.fail := by
  intro k
  induction k with
  | zero =>
    intro ip m h
    unfold MSt.patchOut
    rw [if_neg (by omega)]
  | succ k ih =>
    intro ip m h
    unfold MSt.patchOut
    split
    · simp only
      rw [ih _ _ (by omega)]
      split
      · simp
      · rfl
    · rfl

@[simp] theorem patchFwd_fail {m : MSt} {a b c d} : (m.patchFwd z junk a b c d).fail = m.fail := by
  unfold MSt.patchFwd
  split
  · exact patchOut_fail _ _ _ (Nat.le_refl _)
  · rfl

theorem patchFwd_s {m : MSt} {a b c d} (h : m.fail = false) : (m.patchFwd z junk a b c d).s = m.s.code (Buf.patchFwd z.W a b c d) := by
  unfold MSt.patchFwd; rw [if_neg (by simp [h])]; rfl

theorem byte_eq {m : MSt} {off} (h : m.fail = false) : m.byte junk off = m.s.buf.bytes[off]?.getD 0 := by
  unfold MSt.byte
  cases e : m.s.buf.bytes[off]? <;> simp [h]

theorem word_eq {m : MSt} {off} (h : m.fail = false) : m.word z junk off = rd m.s.buf.bytes z.W off := by
  unfold MSt.word; rw [if_neg (by simp [h])]

theorem string_keep {m : MSt} {o} (h : (m.string z g o).fail = false) : m.fail = false := by
  simp only [MSt.string, poke_fail] at h
  exact emit_keep h

theorem string_s {m : MSt} {o} (h : (m.string z g o).fail = false) : (m.string z g o).s = m.s.code (addRaw 45 (leBytes z.W o)) := by
  simp only [MSt.string, poke_fail] at h
  simp only [MSt.string]
  rw [poke_s h, emit_s h]
  simp only [PSt.code, addRaw, overwrite, List.flatten_cons, List.flatten_nil, List.append_nil]
  have key : ∀ (c : List UInt8) (x : UInt8), overwrite (c ++ x :: leBytes z.W 0) (c.length + 1) (leBytes z.W o) = c ++ x :: leBytes z.W o := by
    intro c x
    have e : c ++ x :: leBytes z.W 0 = (c ++ [x]) ++ leBytes z.W 0 := by simp
    have n : c.length + 1 = (c ++ [x]).length := by simp
    rw [e, n, overwrite, List.take_left, List.drop_of_length_le (by simp [leBytes_length]; omega)]
    simp
  have := key m.s.buf.bytes (UInt8.ofNat 45)
  simp only [overwrite] at this
  rw [this]

/-- `m` is what becomes of `m0`; without a refusal its parser is in the state `s`. -/
def T (m0 m : MSt) (s : PSt) : Prop := m.fail = false → m0.fail = false ∧ m.s = s

theorem T.refl (m : MSt) : T m m m.s := fun h => ⟨h, rfl⟩
theorem T.emit {m0 m s} (o args) (t : T m0 m s) : T m0 (m.emit g o args) (s.code (addRaw o args.flatten)) := fun h =>
  ⟨(t (emit_keep h)).1, by rw [emit_s h, (t (emit_keep h)).2]⟩
theorem T.emit1 {m0 m s} (o a) (t : T m0 m s) : T m0 (m.emit g o [a]) (s.code (addRaw o a)) := by
  have := t.emit (g := g) o [a]
  rwa [List.flatten_cons, List.flatten_nil, List.append_nil] at this
theorem T.forward {m0 m s} (k o) (t : T m0 m s) : T m0 (m.forward z g k o) (s.code fun b => b.addForwardOp z.W k o) := fun h =>
  ⟨(t (forward_keep h)).1, by rw [forward_s h, (t (forward_keep h)).2]⟩
theorem T.number {m0 m s} (u) (t : T m0 m s) : T m0 (m.number z conv g u) (s.code fun b => b.add z.W (numIns conv u)) := fun h =>
  ⟨(t (number_keep h)).1, by rw [number_s h, (t (number_keep h)).2]⟩
theorem T.string {m0 m s} (o) (t : T m0 m s) : T m0 (m.string z g o) (s.code (addRaw 45 (leBytes z.W o))) := fun h =>
  ⟨(t (string_keep h)).1, by rw [string_s h, (t (string_keep h)).2]⟩
theorem T.push {m0 m s} (f : PSt → Nat) (t : T m0 m s) : T m0 (m.push z (f m.s)) (s.push z (f s)) := fun h =>
  ⟨(t h).1, by rw [push_s, (t h).2]⟩
theorem T.push2 {m0 m s} (f f' : PSt → Nat) (t : T m0 m s) :
    T m0 ((m.push z (f m.s)).push z (f' m.s)) ((s.push z (f s)).push z (f' s)) := fun h =>
  ⟨(t h).1, by rw [push_s, push_s, (t h).2]⟩
theorem push_fd {s : PSt} {v} : (s.push z v).fd = s.fd := by unfold PSt.push; split <;> rfl
theorem T.setPush {m0 m s} (f : PSt → Nat) (t : T m0 m s) : T m0 (m.setPush (f m.s)) (s.code (Buf.setPush (f s))) := fun h =>
  ⟨(t h).1, by rw [setPush_s, (t h).2]⟩
theorem T.pushPrev {m0 m s} (t : T m0 m s) : T m0 m.pushPrev (s.code Buf.pushPrev) := fun h =>
  ⟨(t h).1, by rw [pushPrev_s, (t h).2]⟩
theorem T.deletePrev {m0 m s} (t : T m0 m s) : T m0 m.deletePrev (s.code Buf.deletePrev) := fun h =>
  ⟨(t h).1, by rw [deletePrev_s, (t h).2]⟩
theorem T.patchBranch {m0 m s} (f f' : PSt → Nat) (t : T m0 m s) :
    T m0 (m.patchBranch z (f m.s) (f' m.s)) (s.code (Buf.patchBranch z.W (f s) (f' s))) := fun h => by
  rw [patchBranch_fail] at h
  exact ⟨(t h).1, by rw [patchBranch_s h, (t h).2]⟩
theorem T.patchFwd {m0 m s} (k : Nat) (a b d : PSt → Nat) (t : T m0 m s) :
    T m0 (m.patchFwd z junk (a m.s) (b m.s) k (d m.s)) (s.code (Buf.patchFwd z.W (a s) (b s) k (d s))) := fun h => by
  rw [patchFwd_fail] at h
  exact ⟨(t h).1, by rw [patchFwd_s h, (t h).2]⟩
theorem T.upd {m0 m s} (f : PSt → PSt) (t : T m0 m s) : T m0 { m with s := f m.s } (f s) := fun h =>
  ⟨(t h).1, by show f m.s = _; rw [(t h).2]⟩

theorem T.fin {m0 m m' s} (t : T m0 m s) (h : MRes.ok m = .ok m') (hf : m'.fail = false) : m0.fail = false ∧ ARes.ok s = .ok m'.s := by
  cases h
  exact ⟨(t hf).1, by rw [(t hf).2]⟩

theorem pop_sim {m m' : MSt} {k k'} (h : m.pop k = .ok m')
    (H : ∀ v m1, k v m1 = .ok m' → m1.fail = false ∧ k' v m1.s = .ok m'.s) : m.fail = false ∧ m.s.pop k' = .ok m'.s := by
  unfold MSt.pop at h
  unfold PSt.pop
  split at h
  · cases h
  · rename_i v vs e
    rw [e]
    exact H v _ h

theorem lvalue_sim {op : Nat} {m m' : MSt} (h : lvalueM z junk op m = .ok m') (hf : m'.fail = false) :
    m.fail = false ∧ Pda.lvalue z op m.s = .ok m'.s := by
  unfold lvalueM at h
  have hm : m.fail = false := by
    simp only at h
    split at h
    · cases h; exact hf
    · split at h
      · cases h
        split at hf <;> exact hf
      · cases h
  unfold Pda.lvalue
  simp only [byte_eq hm, word_eq hm] at h ⊢
  refine ⟨hm, ?_⟩
  split at h
  · rename_i e
    rw [if_pos e]; cases h; rfl
  · rename_i e
    rw [if_neg e]
    split at h
    · rename_i e
      rw [if_pos e]; cases h
      split
      · rfl
      · rfl
    · cases h

/-- An action that is carried out without a refusal does what it does in Model/Pda. -/
theorem act_sim {x : Act} {m m' : MSt} (h : actM z conv g junk x m = .ok m') (hf : m'.fail = false) :
    m.fail = false ∧ act z conv x m.s = .ok m'.s := by
  cases x with
  | finish =>
    simp only [actM] at h
    split at h
    · rename_i e; cases h; refine ⟨hf, ?_⟩; simp only [act, e]
    · split at h
      · cases h; exact ⟨hf, rfl⟩
      · cases h; cases hf
  | defName =>
    simp only [actM, act] at h ⊢
    exact ((T.refl m).upd (fun s => { s with formals := [], nnamed := 0 }) |>.push fun s => tokId s.tv).fin h hf
  | defEnd =>
    simp only [actM, act] at h ⊢
    generalize e1 : (if (m.byte junk m.s.buf.prev).toNat = 65 then m.deletePrev else m.emit g 67 []) = m1 at h
    have h1 : m1.fail = false := by
      split at h
      · rename_i e; cases h; exact absurd hf (by simp [e.1])
      · split at h
        · split at h
          · unfold MSt.pop at h
            split at h
            · cases h
            · cases h; exact hf
          · cases h; cases hf
        · cases h; cases hf
    have hm : m.fail = false := by
      rw [← e1] at h1
      split at h1
      · exact h1
      · exact emit_keep h1
    refine ⟨hm, ?_⟩
    rw [if_neg (by simp [h1])] at h
    split at h
    · split at h
      · have e2 : m1.s = m.s.code fun b => if (b.bytes[b.prev]?.getD 0).toNat = 65 then b.deletePrev else addRaw 67 [] b := by
          rw [← e1, byte_eq hm] at *
          split
          · rename_i e; simp [PSt.code, e]
          · rename_i e
            rw [if_neg e] at h1
            rw [emit_s h1]; simp [PSt.code, e]
        have e3 : m1.s.vals = m.s.vals := by rw [e2]; rfl
        unfold MSt.pop at h
        unfold PSt.pop
        rw [e3] at h
        split at h
        · cases h
        · rename_i v vs e
          rw [e]
          cases h
          simp only [MSt.reset, e2, PSt.code]
      · cases h; cases hf
    · cases h; cases hf
  | formal =>
    simp only [actM] at h
    simp only [act]
    split at h
    · cases h
    · rename_i e; rw [if_neg e]; cases h; exact ⟨hf, rfl⟩
  | named =>
    simp only [actM, act] at h ⊢
    exact ((T.refl m).upd (fun s => { s with nnamed := s.nnamed + 1 }) |>.emit1 42 (leBytes z.W (m.s.formals.getLastD 0))).fin h hf
  | notNamed =>
    simp only [actM] at h
    simp only [act]
    split at h
    · cases h
    · rename_i e; rw [if_neg e]; cases h; exact ⟨hf, rfl⟩
  | addLine =>
    simp only [actM, act] at h ⊢
    exact ((T.refl m).emit1 66 _).fin h hf
  | ret =>
    simp only [actM, act] at h ⊢
    exact ((T.refl m).emit 65 []).fin h hf
  | null =>
    simp only [actM, act] at h ⊢
    exact ((T.refl m).emit 67 []).fin h hf
  | brk =>
    simp only [actM, act] at h ⊢
    exact ((T.refl m).forward fwBreak 58).fin h hf
  | cont =>
    simp only [actM, act] at h ⊢
    exact ((T.refl m).forward fwContinue 58).fin h hf
  | assert_ =>
    simp only [actM, act] at h ⊢
    exact ((T.refl m).emit 57 []).fin h hf
  | delLvalue =>
    simp only [actM, act] at h ⊢
    exact lvalue_sim h hf
  | lvalue =>
    simp only [actM, act] at h ⊢
    exact lvalue_sim h hf
  | opLvalue =>
    simp only [actM, act] at h ⊢
    exact pop_sim h fun op m h => pop_sim h fun id m h => ((T.refl m).emit1 op _).fin h hf
  | global =>
    simp only [actM, act] at h ⊢
    exact ((T.refl m).emit1 55 _).fin h hf
  | ifEnd =>
    simp only [actM, act] at h ⊢
    exact pop_sim h fun elifOff m h => pop_sim h fun ifOff m h =>
      ((T.refl m).patchBranch (fun _ => ifOff) (fun _ => elifOff) |>.patchFwd fwIf (fun _ => ifOff) (fun s => s.buf.cur) (fun s => s.buf.cur)).fin h hf
  | elif =>
    simp only [actM, act] at h ⊢
    exact (((T.refl m).emit1 66 (leBytes z.W m.s.line)).forward fwIf 58 |>.push fun s => s.buf.cur).fin h hf
  | elseB =>
    simp only [actM, act] at h ⊢
    exact ((T.refl m).forward fwIf 58 |>.push fun s => s.buf.cur).fin h hf
  | elifEnd =>
    simp only [actM, act] at h ⊢
    exact pop_sim h fun elifOff m h => pop_sim h fun ifOff m h =>
      ((T.refl m).patchBranch (fun _ => ifOff) (fun _ => elifOff)).fin h hf
  | pushCur =>
    simp only [actM, act] at h ⊢
    exact ((T.refl m).push fun s => s.buf.cur).fin h hf
  | ifExpr =>
    simp only [actM, act] at h ⊢
    exact ((T.refl m).emit1 60 (leBytes z.W 0) |>.push fun s => s.buf.prev).fin h hf
  | whileTest =>
    simp only [actM, act] at h ⊢
    exact ((T.refl m).emit1 60 (leBytes z.W 0) |>.push fun s => s.buf.prev).fin h hf
  | loopEnd =>
    simp only [actM, act] at h ⊢
    exact ((T.refl m).emit1 58 (leBytes z.W 0) |>.push2 (fun s => s.buf.prev) fun s => s.buf.cur).fin h hf
  | patchLoop =>
    simp only [actM, act] at h ⊢
    exact pop_sim h fun elseOff m h => pop_sim h fun endOff m h => pop_sim h fun whileOff m h => pop_sim h fun topOff m h =>
      ((T.refl m).patchBranch (fun _ => whileOff) (fun _ => elseOff) |>.patchBranch (fun _ => endOff) (fun _ => topOff)
        |>.patchFwd fwContinue (fun _ => whileOff) (fun _ => endOff) (fun _ => topOff)
        |>.patchFwd fwBreak (fun _ => whileOff) (fun _ => endOff) (fun s => s.buf.cur)).fin h hf
  | forName =>
    simp only [actM, act] at h ⊢
    exact ((T.refl m).push fun s => tokId s.tv).fin h hf
  | forEnd =>
    simp only [actM, act] at h ⊢
    exact ((T.refl m).upd fun s => { s with fd := s.fd - 1 }).fin h hf
  | rangeEnd =>
    simp only [actM, act] at h ⊢
    exact pop_sim h fun num m h => by
      split at h
      · cases h
      · rename_i e
        rw [if_neg e]
        exact pop_sim h fun id m h => by
          have := ((T.refl m).emit (g := g) 62 [leBytes z.W num, [UInt8.ofNat m.s.fd], leBytes z.W id]
            |>.emit (g := g) 63 [leBytes z.W 0, [UInt8.ofNat m.s.fd], leBytes z.W id]
            |>.push2 (z := z) (fun s => s.buf.prev) (fun s => s.buf.prev) |>.upd fun s => { s with fd := s.fd + 1 }).fin h hf
          simpa [push_fd, PSt.code] using this
  | inEnd =>
    simp only [actM, act] at h ⊢
    exact pop_sim h fun id m h => by
      have := ((T.refl m).emit1 (g := g) 41 (leBytes z.W (forTmp z.W (UInt8.ofNat m.s.fd) 0))
        |>.number (z := z) (conv := conv) (g := g) 0 |>.emit1 (g := g) 41 (leBytes z.W (forTmp z.W (UInt8.ofNat m.s.fd) 1))
        |>.emit (g := g) 64 [leBytes z.W 0, [UInt8.ofNat m.s.fd], leBytes z.W id]
        |>.push2 (z := z) (fun s => s.buf.prev) (fun s => s.buf.prev) |>.upd fun s => { s with fd := s.fd + 1 }).fin h hf
      simpa [push_fd, PSt.code] using this
  | indent =>
    simp only [actM, act] at h ⊢
    exact ((T.refl m).push fun s => tokIndent s.tv).fin h hf
  | exdent =>
    simp only [actM, act] at h ⊢
    exact pop_sim h fun indent m h => by
      split at h
      · cases h
      · rename_i e; rw [if_neg e]; cases h; exact ⟨hf, rfl⟩
  | boolBranch onTrue =>
    simp only [actM, act] at h ⊢
    exact ((T.refl m).emit1 (if onTrue then 59 else 60) (leBytes z.W 0) |>.push fun s => s.buf.prev).fin h hf
  | shortSecond =>
    simp only [actM, act] at h ⊢
    exact pop_sim h fun off m h => ((T.refl m).patchBranch (fun _ => off) (fun s => s.buf.cur) |>.emit 68 []).fin h hf
  | unopFirst =>
    simp only [actM, act] at h ⊢
    exact ((T.refl m).push fun s => tokOp s.tv).fin h hf
  | uminus =>
    simp only [actM, act] at h ⊢
    exact ((T.refl m).push fun _ => 51).fin h hf
  | unopSecond =>
    simp only [actM, act] at h ⊢
    exact pop_sim h fun op m h => ((T.refl m).emit op []).fin h hf
  | push0 =>
    simp only [actM, act] at h ⊢
    exact ((T.refl m).push fun _ => 0).fin h hf
  | push1 =>
    simp only [actM, act] at h ⊢
    exact ((T.refl m).push fun _ => 1).fin h hf
  | cmpEnd =>
    simp only [actM, act] at h ⊢
    exact pop_sim h fun off m h => by
      split at h
      · rename_i e
        rw [if_pos e]
        exact ((T.refl m).patchFwd fwCmp (fun _ => off) (fun s => s.buf.cur) (fun s => s.buf.cur) |>.emit 68 []).fin h hf
      · rename_i e; rw [if_neg e]; exact (T.refl m).fin h hf
  | cmpLink =>
    simp only [actM, act] at h ⊢
    split at h
    · cases h
    · rename_i off vs e
      have hm : m.fail = false := by
        cases h
        rw [push_fail, pushPrev_fail] at hf
        split at hf
        · have := forward_keep hf
          exact this
        · exact hf
      simp only [byte_eq hm] at h
      rw [e]
      split at h
      · rename_i e
        simp only [if_pos e]
        generalize ec : (m.s.buf.bytes[m.s.buf.prev]?.getD 0).toNat + 6 = c at h
        have := (((T.refl m).deletePrev.forward (z := z) (g := g) fwCmp c).pushPrev
          |>.push (z := z) fun s => tokOp s.tv).fin h hf
        simp only [PSt.code] at this ⊢
        rw [ec]
        exact this
      · rename_i e
        simp only [if_neg e]
        exact (((T.refl m).upd fun s => { s with vals := s.buf.prev :: vs }).pushPrev |>.push fun s => tokOp s.tv).fin h hf
  | binopFirst =>
    simp only [actM, act] at h ⊢
    exact ((T.refl m).pushPrev.push fun s => tokOp s.tv).fin h hf
  | binopSecond =>
    simp only [actM, act] at h ⊢
    exact pop_sim h fun op m h => ((T.refl m).emit op []).fin h hf
  | setPush =>
    simp only [actM, act] at h ⊢
    exact (T.refl m).pushPrev.fin h hf
  | index =>
    simp only [actM, act] at h ⊢
    exact pop_sim h fun sl m h => by
      split at h
      · rename_i e
        rw [if_pos e]
        exact pop_sim h fun stride m h => pop_sim h fun stop m h => pop_sim h fun start m h => ((T.refl m).emit1 54 _).fin h hf
      · rename_i e; rw [if_neg e]; exact ((T.refl m).emit 16 []).fin h hf
  | call =>
    simp only [actM, act] at h ⊢
    exact pop_sim h fun num m h => ((T.refl m).emit1 53 _).fin h hf
  | optExpr =>
    simp only [actM, act] at h ⊢
    exact (((T.refl m).push fun _ => 1).pushPrev).fin h hf
  | tuple =>
    simp only [actM, act] at h ⊢
    exact pop_sim h fun num m h => by
      split at h
      · rename_i e; rw [if_pos e]; exact ((T.refl m).emit1 47 _).fin h hf
      · rename_i e; rw [if_neg e]; exact (T.refl m).fin h hf
  | list =>
    simp only [actM, act] at h ⊢
    exact pop_sim h fun num m h => by
      split at h
      · cases h
      · rename_i e; rw [if_neg e]; exact ((T.refl m).emit1 46 _).fin h hf
  | dict =>
    simp only [actM, act] at h ⊢
    exact pop_sim h fun num m h => ((T.refl m).emit1 48 _).fin h hf
  | name =>
    simp only [actM, act] at h ⊢
    exact ((T.refl m).emit1 49 _).fin h hf
  | number =>
    simp only [actM] at h
    simp only [act]
    split at h
    · rename_i u e; simp only [e]; exact ((T.refl m).number _).fin h hf
    · rename_i e
      have : ∀ b : Buf, (match m.s.tv with | .number u => b.add z.W (numIns conv u) | _ => b) = b := by
        intro b; split
        · rename_i u e'; exact absurd e' (e u)
        · rfl
      simp only [this]
      exact (T.refl m).fin h hf
  | string =>
    simp only [actM] at h
    simp only [act]
    split at h
    · rename_i u e; simp only [e]; exact ((T.refl m).string _).fin h hf
    · rename_i e
      have : ∀ b : Buf, (match m.s.tv with | .string o => addRaw 45 (leBytes z.W o) b | _ => b) = b := by
        intro b; split
        · rename_i u e'; exact absurd e' (e u)
        · rfl
      simp only [this]
      exact (T.refl m).fin h hf
  | stringCat =>
    simp only [actM] at h
    simp only [act]
    split at h
    · rename_i u e; simp only [e]; exact (((T.refl m).pushPrev.string u).emit 17 []).fin h hf
    · rename_i e
      have : ∀ b : Buf, (match m.s.tv with | .string o => addRaw 17 [] (addRaw 45 (leBytes z.W o) b.pushPrev) | _ => b) = b := by
        intro b; split
        · rename_i u e'; exact absurd e' (e u)
        · rfl
      simp only [this]
      exact (T.refl m).fin h hf
  | tupleP =>
    simp only [actM, act] at h ⊢
    exact pop_sim h fun num m h => by
      split at h
      · cases h
      · rename_i e; rw [if_neg e]; exact ((T.refl m).push fun _ => num + 1).fin h hf
  | notTuple =>
    simp only [actM, act] at h ⊢
    exact ((T.refl m).push fun _ => 2 ^ (8 * z.W) - 1).fin h hf
  | argName =>
    simp only [actM, act] at h ⊢
    have hm : m.fail = false := by
      split at h
      · cases h
      · cases h
        rw [pushPrev_fail] at hf
        have := number_keep hf
        exact this
    simp only [byte_eq hm, word_eq hm] at h
    split at h
    · cases h
    · rename_i e
      rw [if_neg e]
      generalize intToF (rd m.s.buf.bytes z.W (m.s.buf.prev + 1)) = c at h ⊢
      have := ((T.refl m).deletePrev.number (z := z) (conv := conv) (g := g) c |>.pushPrev).fin h hf
      simp only [PSt.code] at this ⊢
      exact this
  | argNamed =>
    simp only [actM, act] at h ⊢
    exact pop_sim h fun num m h => (((T.refl m).push fun _ => num + 256).pushPrev).fin h hf
  | argPos =>
    simp only [actM, act] at h ⊢
    exact pop_sim h fun num m h => by
      split at h
      · cases h
      · rename_i e; rw [if_neg e]; exact (((T.refl m).push fun _ => num + 1).pushPrev).fin h hf
  | entPart =>
    simp only [actM, act] at h ⊢
    exact pop_sim h fun num m h => (((T.refl m).push fun _ => num + 1).pushPrev).fin h hf

theorem lvalue_stop {op : Nat} {m : MSt} (hm : m.fail = false) :
    (lvalueM z junk op m = .syntax → Pda.lvalue z op m.s = .syntax) ∧ lvalueM z junk op m ≠ .fault := by
  unfold lvalueM Pda.lvalue
  simp only [byte_eq hm, word_eq hm]
  split
  · exact ⟨nofun, nofun⟩
  · split
    · exact ⟨nofun, nofun⟩
    · exact ⟨fun _ => rfl, nofun⟩

/-- An action that stops the parser does so in Model/Pda. -/
theorem act_stop {x : Act} {m : MSt} (hm : m.fail = false) :
    (actM z conv g junk x m = .syntax → act z conv x m.s = .syntax) ∧ (actM z conv g junk x m = .fault → act z conv x m.s = .fault) := by
  cases x
  case delLvalue => exact ⟨(lvalue_stop hm).1, fun h => absurd h (lvalue_stop hm).2⟩
  case lvalue => exact ⟨(lvalue_stop hm).1, fun h => absurd h (lvalue_stop hm).2⟩
  case finish =>
    simp only [actM]
    split
    · exact ⟨nofun, nofun⟩
    · split <;> exact ⟨nofun, nofun⟩
  case defEnd =>
    simp only [actM, act]
    generalize e1 : (if (m.byte junk m.s.buf.prev).toNat = 65 then m.deletePrev else m.emit g 67 []) = m1
    have e3 : m1.s.vals = m.s.vals := by
      rw [← e1]
      split
      · rfl
      · show ((m.op g 67)).s.vals = _
        unfold MSt.op MSt.ext
        split
        · split <;> rfl
        · rfl
    split
    · exact ⟨nofun, nofun⟩
    · split
      · split
        · unfold MSt.pop PSt.pop
          rw [e3]
          cases m.s.vals with
          | nil => exact ⟨nofun, fun _ => rfl⟩
          | cons => exact ⟨nofun, nofun⟩
        · exact ⟨nofun, nofun⟩
      · exact ⟨nofun, nofun⟩
  case argName =>
    simp only [actM, act, byte_eq hm]
    split
    · exact ⟨fun _ => rfl, nofun⟩
    · exact ⟨nofun, nofun⟩
  case cmpLink =>
    simp only [actM, act]
    cases m.s.vals with
    | nil => exact ⟨nofun, fun _ => rfl⟩
    | cons => exact ⟨nofun, nofun⟩
  case index =>
    simp only [actM, act, MSt.pop, PSt.pop]
    rcases m.s.vals with _ | ⟨a, _ | ⟨b, _ | ⟨c, _ | ⟨d, r⟩⟩⟩⟩ <;> simp only [pushPrev_s, PSt.code] <;> (try split) <;> simp
  all_goals simp only [actM, act, MSt.pop, PSt.pop]
  all_goals first
    | (refine ⟨?_, ?_⟩ <;> (intro h; cases h; done))
    | (rcases m.s.vals with _ | ⟨a, _ | ⟨b, _ | ⟨c, _ | ⟨d, r⟩⟩⟩⟩ <;> (try simp only []) <;> (repeat' split) <;> simp_all)

end Snek.Scarce
