import Verif.Proofs.Comp
import Verif.Spec.LangWf
/-!
# The scanners over code find exactly the instructions

`snek_code_patch_forward`, `code_mark` / `code_move` and `snek_code_line` walk over code with `snek_op_operand_size`.
-/
namespace Snek.Lang
open Snek.Vm

/-- The scanners step over this instruction correctly. -/
def ScanOk : Ins → Prop
  | .mk .dict n => DictOk n
  | .forward f => f / 256 = 58 ∨ (6 ≤ f / 256 ∧ f / 256 < 12)
  | _ => True

/-- Outside dictionary displays the size table is right. -/
theorem operandSize_eq (W : Nat) (i : Ins) (h : ∀ n, i ≠ .mk .dict n) : operandSize W i.opcode = (i.operands W).length := by
  cases i
  case rel r =>
    cases r with
    | cmp c => cases c <;> simp [Ins.opcode, RelOp.num, CmpOp.num, operandSize, Ins.operands]
    | _ => simp [Ins.opcode, RelOp.num, operandSize, Ins.operands]
  case chain c t => cases c <;> simp [Ins.opcode, CmpOp.num, operandSize, Ins.operands, leBytes_length]
  case arith op => cases op <;> simp [Ins.opcode, BinOp.num, operandSize, Ins.operands]
  case assign a x =>
    cases a with
    | aug op => cases op <;> simp [Ins.opcode, AOp.num, BinOp.num, operandSize, Ins.operands, leBytes_length]
    | _ => simp [Ins.opcode, AOp.num, operandSize, Ins.operands, leBytes_length]
  case mk k n =>
    cases k with
    | dict => exact absurd rfl (h n)
    | _ => simp [Ins.opcode, MkKind.num, operandSize, Ins.operands, leBytes_length]
  case unary u => cases u <;> simp [Ins.opcode, UnOp.num, operandSize, Ins.operands]
  all_goals simp [Ins.opcode, operandSize, Ins.operands, leBytes_length]
  all_goals omega

theorem leBytes_zero (k : Nat) : leBytes k 0 = List.replicate k 0 := by
  induction k with
  | zero => rfl
  | succ k ih => simp [leBytes, ih, List.replicate_succ]

theorem leBytes_small {W n : Nat} (hW : 1 ≤ W) (hn : n < 256) : leBytes W n = UInt8.ofNat n :: List.replicate (W - 1) 0 := by
  cases W with
  | zero => omega
  | succ W =>
    simp only [leBytes]
    rw [Nat.mod_eq_of_lt hn, Nat.div_eq_of_lt hn, leBytes_zero]; rfl

theorem overwrite_at (pre old post new : List UInt8) (h : old.length = new.length) (k : Nat) (hk : k = pre.length) :
    overwrite (pre ++ (old ++ post)) k new = pre ++ (new ++ post) := by
  subst hk
  unfold overwrite
  rw [List.take_left, ← h, ← List.drop_drop, List.drop_left, List.drop_left]
  simp

/-- Changing the first operand of an instruction in place. -/
theorem patchBranch_item {W : Nat} {i i' : Ins} {x t : Nat} {r : List UInt8} (hi : i.operands W = leBytes W x ++ r)
    (hi' : i'.operands W = leBytes W t ++ r) (ho : i.opcode = i'.opcode) (l1 l2 : List Item) (p : Bool) (off : Nat)
    (hoff : off = isz W l1) :
    overwrite (enc W (l1 ++ (i, p) :: l2)) (off + 1) (leBytes W t) = enc W (l1 ++ (i', p) :: l2) := by
  subst hoff
  have e : enc W (l1 ++ (i, p) :: l2) =
      (enc W l1 ++ [UInt8.ofNat (i.opcode + if p then 128 else 0)]) ++ (leBytes W x ++ (r ++ enc W l2)) := by
    simp [enc, encode, hi]
  have e' : enc W (l1 ++ (i', p) :: l2) =
      (enc W l1 ++ [UInt8.ofNat (i.opcode + if p then 128 else 0)]) ++ (leBytes W t ++ (r ++ enc W l2)) := by
    simp [enc, encode, hi', ho]
  rw [e, e', overwrite_at _ _ _ _ (by simp [leBytes_length]) _ (by simp)]

/-- Stepping over plain bytes. -/
theorem patchForward_bytes (W kind t : Nat) (bs : List UInt8) (pre post : List UInt8) (stop : Nat)
    (hb : ∀ b ∈ bs, b.toNat < 128 ∧ operandSize W b.toNat = 0) (hne : ∀ b ∈ bs, b.toNat ≠ 61)
    (hs : pre.length + bs.length ≤ stop) :
    patchForward W (pre ++ (bs ++ post)) pre.length stop kind t =
      patchForward W (pre ++ (bs ++ post)) (pre.length + bs.length) stop kind t := by
  induction bs generalizing pre with
  | nil => simp
  | cons b bs ih =>
    have h1 := hb b (by simp)
    have h2 := hne b (by simp)
    rw [patchForward.eq_def]
    have hlt : pre.length < stop := by simp at hs; omega
    have hg : (pre ++ (b :: bs ++ post))[pre.length]?.getD 0 = b := by simp
    rw [if_pos hlt]
    simp only [hg]
    rw [Nat.mod_eq_of_lt h1.1, h1.2, if_neg (by simp [h2])]
    have e : pre ++ (b :: bs ++ post) = (pre ++ [b]) ++ (bs ++ post) := by simp
    have l : pre.length + 1 + 0 = (pre ++ [b]).length := by simp
    rw [e, l, ih (pre ++ [b]) (fun c hc => hb c (by simp [hc])) (fun c hc => hne c (by simp [hc])) (by simp at hs ⊢; omega)]
    congr 1
    simp; omega

theorem ofNat_or_push (n : Nat) (p : Bool) (h : n < 128) :
    UInt8.ofNat n ||| UInt8.ofNat ((if p then 128 else 0)) = UInt8.ofNat (n + if p then 128 else 0) := by
  cases p
  · simp
  · have : ∀ n : Fin 128, UInt8.ofNat n.val ||| UInt8.ofNat 128 = UInt8.ofNat (n.val + 128) := by decide
    simpa using this ⟨n, h⟩

theorem fwdIns_opcode {op : Nat} (t : Nat) (h : op = 58 ∨ (6 ≤ op ∧ op < 12)) : (fwdIns op t).opcode = op := by
  unfold fwdIns
  rcases h with h | ⟨h1, h2⟩
  · subst h; rfl
  · rw [if_neg (by omega)]
    have : op = 6 ∨ op = 7 ∨ op = 8 ∨ op = 9 ∨ op = 10 ∨ op = 11 := by omega
    rcases this with h | h | h | h | h | h <;> subst h <;> rfl

theorem fwdIns_operands (W op t : Nat) : (fwdIns op t).operands W = leBytes W t := by
  unfold fwdIns; split <;> rfl

/-- One instruction of the scan. -/
theorem patchForward_item {W : Nat} (hW : 2 ≤ W) (kind t : Nat) (it : Item) (hs : ScanOk it.1) (pre post : List UInt8) (stop : Nat)
    (hlt : pre.length + it.1.size W ≤ stop) :
    patchForward W (pre ++ (encode W it.1 it.2 ++ post)) pre.length stop kind t =
      patchForward W (pre ++ (encode W (patchItem kind t it).1 (patchItem kind t it).2 ++ post))
        (pre.length + it.1.size W) stop kind t := by
  obtain ⟨i, p⟩ := it
  have hb := encode_head W i p pre post
  have hlt' := i.opcode_lt
  have hop : (i.opcode + if p then 128 else 0) % 128 = i.opcode := by cases p <;> simp <;> omega
  have hdiv : (i.opcode + if p then 128 else 0) / 128 * 128 = if p then 128 else 0 := by cases p <;> simp <;> omega
  have hsz : 0 < i.size W := i.size_pos W
  rw [patchForward.eq_def, if_pos (by simp only at hlt; omega)]
  simp only [hb, hop, hdiv]
  by_cases hd : ∃ n, i = .mk .dict n
  · obtain ⟨n, rfl⟩ := hd
    have hn : DictOk n := hs
    rw [if_neg (by simp [Ins.opcode, MkKind.num])]
    have ho48 : (Ins.mk .dict n).opcode = 48 := rfl
    rw [ho48]
    simp only [patchItem]
    have hbytes : leBytes W n = UInt8.ofNat n :: List.replicate (W - 1) 0 := leBytes_small (by omega) (by have := hn.1; omega)
    have e : pre ++ (encode W (.mk .dict n) p ++ post) =
        (pre ++ [UInt8.ofNat (48 + if p then 128 else 0)]) ++ ((UInt8.ofNat n :: List.replicate (W - 1) 0) ++ post) := by
      simp [encode, Ins.operands, hbytes, Ins.opcode, MkKind.num]
    have l1 : pre.length + 1 + operandSize W 48 = (pre ++ [UInt8.ofNat (48 + if p then 128 else 0)]).length := by
      simp [operandSize]
    have hn128 := hn.1
    have hnat : (UInt8.ofNat n).toNat = n := by simp; omega
    obtain ⟨d1, d2, d3, d4, d5, d6⟩ := hn
    have hos : operandSize W n = 0 := by
      unfold operandSize
      rw [if_neg (by omega), if_neg (by omega), if_neg (by omega), if_neg (by omega), if_neg (by omega), if_neg (by omega),
        if_neg (by omega), if_neg (by omega)]
    rw [l1, e, patchForward_bytes]
    · congr 1
      simp [Ins.size, Ins.operands, leBytes_length]; omega
    · intro b hb
      simp only [List.mem_cons, List.mem_replicate] at hb
      rcases hb with rfl | ⟨_, rfl⟩
      · rw [hnat]; exact ⟨hn128, hos⟩
      · exact ⟨by decide, rfl⟩
    · intro b hb
      simp only [List.mem_cons, List.mem_replicate] at hb
      rcases hb with rfl | ⟨_, rfl⟩
      · rw [hnat]; omega
      · decide
    · simp [Ins.size, Ins.operands, leBytes_length] at hlt ⊢; omega
  · have hos := operandSize_eq W i (fun n h => hd ⟨n, h⟩)
    have hnext : pre.length + 1 + operandSize W i.opcode = pre.length + i.size W := by rw [hos, Ins.size]; omega
    rw [hnext]
    congr 1
    by_cases hf : ∃ f, i = .forward f
    · obtain ⟨f, rfl⟩ := hf
      have hs' : f / 256 = 58 ∨ (6 ≤ f / 256 ∧ f / 256 < 12) := hs
      have hfit : f < 256 ^ W := by
        have h1 : f < 256 * 59 := by omega
        have h2 : (256 : Nat) ^ 2 ≤ 256 ^ W := Nat.pow_le_pow_right (by omega) hW
        omega
      have e1 : pre ++ (encode W (.forward f) p ++ post) =
          (pre ++ [UInt8.ofNat (61 + if p then 128 else 0)]) ++ (leBytes W f ++ post) := by
        simp [encode, Ins.operands, Ins.opcode]
      have l1 : (pre ++ [UInt8.ofNat (61 + if p then 128 else 0)]).length = pre.length + 1 := by simp
      have hrd : rd (pre ++ (encode W (.forward f) p ++ post)) W (pre.length + 1) = f := by
        rw [e1, ← l1, rd_at _ _ _ _ (leBytes_length _ _), leNat_leBytes _ _ hfit]
      rw [hrd]
      simp only [Ins.opcode, patchItem, true_and]
      by_cases hk : f % 256 = kind
      · rw [if_pos hk, if_pos hk]
        have hcode := fwdIns_opcode t hs'
        rw [ofNat_or_push _ _ (by omega)]
        have e2 : (pre ++ (encode W (.forward f) p ++ post)).set pre.length (UInt8.ofNat (f / 256 + if p then 128 else 0)) =
            (pre ++ [UInt8.ofNat (f / 256 + if p then 128 else 0)]) ++ (leBytes W f ++ post) := by
          simp [encode, Ins.operands]
        rw [e2, overwrite_at _ _ _ _ (by simp [leBytes_length]) _ (by simp)]
        simp [encode, fwdIns_operands, hcode]
      · rw [if_neg hk, if_neg hk]
    · have ho : i.opcode ≠ 61 := by
        intro h
        cases i <;> simp [Ins.opcode] at h hf
        case rel r => cases r <;> simp [RelOp.num] at h; rename_i c; cases c <;> simp [CmpOp.num] at h
        case chain c _ => cases c <;> simp [CmpOp.num] at h
        case arith op => cases op <;> simp [BinOp.num] at h
        case assign a _ => cases a <;> simp [AOp.num] at h; rename_i op; cases op <;> simp [BinOp.num] at h
        case mk k _ => cases k <;> simp [MkKind.num] at h
        case unary u => cases u <;> simp [UnOp.num] at h
      rw [if_neg (by simp [ho])]
      have : patchItem kind t (i, p) = (i, p) := by
        unfold patchItem
        cases i <;> simp at hf ⊢
      rw [this]

/-- Resolving the forward references between two instructions. -/
theorem patchForward_items {W : Nat} (hW : 2 ≤ W) (kind t : Nat) (l2 : List Item) (hs : ∀ it ∈ l2, ScanOk it.1) (l1 l3 : List Item) :
    patchForward W (enc W (l1 ++ (l2 ++ l3))) (isz W l1) (isz W l1 + isz W l2) kind t =
      enc W (l1 ++ (l2.map (patchItem kind t) ++ l3)) := by
  induction l2 generalizing l1 with
  | nil =>
    rw [patchForward.eq_def, if_neg (by simp)]; simp
  | cons it l2 ih =>
    have h := patchForward_item hW kind t it (hs it (by simp)) (enc W l1) (enc W (l2 ++ l3)) (isz W l1 + isz W (it :: l2))
      (by simp)
    have e1 : enc W (l1 ++ (it :: l2 ++ l3)) = enc W l1 ++ (encode W it.1 it.2 ++ enc W (l2 ++ l3)) := by simp [enc]
    have e2 : enc W l1 ++ (encode W (patchItem kind t it).1 (patchItem kind t it).2 ++ enc W (l2 ++ l3)) =
        enc W ((l1 ++ [patchItem kind t it]) ++ (l2 ++ l3)) := by simp [enc]
    have l : isz W l1 + it.1.size W = isz W (l1 ++ [patchItem kind t it]) := by simp [patchItem_size]
    rw [e1]
    rw [enc_length] at h
    rw [h, e2, l]
    have l' : isz W l1 + isz W (it :: l2) = isz W (l1 ++ [patchItem kind t it]) + isz W l2 := by simp [patchItem_size]; omega
    rw [l', ih (fun x hx => hs x (by simp [hx]))]
    simp

end Snek.Lang
