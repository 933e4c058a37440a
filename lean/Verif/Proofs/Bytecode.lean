import Verif.Model.Bytecode
/-!
# The machine reads back the instructions the compiler wrote
-/
namespace Snek.Vm

/-- Operands are representable. -/
def Ins.Fits (W : Nat) : Ins → Prop
  | .chain _ t | .branch t | .branchTrue t | .branchFalse t | .forward t | .line t => t < 256 ^ W
  | .assign _ x | .id x | .global x | .del x => x < 256 ^ W
  | .string o => o < 256 ^ W
  | .mk _ n => n < 256 ^ W
  | .call n => n < 256 ^ W
  | .rangeStart n _ x | .rangeStep n _ x | .inStep n _ x => n < 256 ^ W ∧ x < 256 ^ W
  | _ => True

theorem leBytes_length (k n : Nat) : (leBytes k n).length = k := by
  induction k generalizing n with
  | zero => rfl
  | succ k ih => simp [leBytes, ih]

theorem leNat_leBytes (k n : Nat) (h : n < 256 ^ k) : leNat (leBytes k n) = n := by
  induction k generalizing n with
  | zero => simp at h; simp [leBytes, leNat, h]
  | succ k ih =>
    simp only [leBytes, leNat]
    rw [ih (n / 256) (by rw [Nat.pow_succ] at h; omega)]
    have : (UInt8.ofNat (n % 256)).toNat = n % 256 := by
      simp
    rw [this]; omega

theorem rd_at (pre l post : List UInt8) (k : Nat) (h : l.length = k) : rd (pre ++ (l ++ post)) k pre.length = leNat l := by
  unfold rd
  rw [List.drop_left, ← h, List.take_left]

theorem Ins.opcode_lt (i : Ins) : i.opcode < 128 := by
  cases i <;> simp [Ins.opcode]
  case rel r => cases r <;> simp [RelOp.num]; rename_i c; cases c <;> simp [CmpOp.num]
  case chain c _ => cases c <;> simp [CmpOp.num]
  case arith op => cases op <;> simp [BinOp.num]
  case assign a _ => cases a <;> simp [AOp.num]; rename_i op; cases op <;> simp [BinOp.num]
  case mk k _ => cases k <;> simp [MkKind.num]
  case unary u => cases u <;> simp [UnOp.num]

theorem Ins.size_pos (W : Nat) (i : Ins) : 0 < i.size W := by unfold Ins.size; omega

theorem encode_length (W : Nat) (i : Ins) (p : Bool) : (encode W i p).length = i.size W := by
  simp [encode, Ins.size]; omega

/-- The byte at the start of an instruction. -/
theorem encode_head (W : Nat) (i : Ins) (p : Bool) (pre post : List UInt8) :
    ((pre ++ (encode W i p ++ post))[pre.length]?.getD 0).toNat = i.opcode + if p then 128 else 0 := by
  have h : (pre ++ (encode W i p ++ post))[pre.length]? = some (UInt8.ofNat (i.opcode + if p then 128 else 0)) := by
    rw [List.getElem?_append_right (Nat.le_refl _)]
    simp [encode]
  rw [h]
  simp only [Option.getD_some]
  have := i.opcode_lt
  cases p <;> simp <;> omega

/-- Reading back an instruction. -/
theorem fetch_encode (W : Nat) (i : Ins) (p : Bool) (pre post : List UInt8) (hf : i.Fits W) :
    fetch W (pre ++ (encode W i p ++ post)) pre.length = (i, p, pre.length + i.size W) := by
  have hb := encode_head W i p pre post
  have hlt := i.opcode_lt
  have hop : (i.opcode + if p then 128 else 0) % 128 = i.opcode := by cases p <;> simp <;> omega
  have hp : decide (128 ≤ i.opcode + if p then 128 else 0) = p := by cases p <;> simp <;> omega
  have e1 : pre ++ (encode W i p ++ post) =
      (pre ++ [UInt8.ofNat (i.opcode + if p then 128 else 0)]) ++ (i.operands W ++ post) := by
    simp [encode]
  have l1 : (pre ++ [UInt8.ofNat (i.opcode + if p then 128 else 0)]).length = pre.length + 1 := by simp
  have r1 : ∀ k l, i.operands W = l → l.length = k → rd (pre ++ (encode W i p ++ post)) k (pre.length + 1) = leNat l := by
    intro k l h1 h2
    rw [e1, ← l1, h1]; exact rd_at _ _ _ _ h2
  have rW : ∀ t, i.operands W = leBytes W t → t < 256 ^ W →
      rd (pre ++ (encode W i p ++ post)) W (pre.length + 1) = t := by
    intro t h1 h2
    rw [r1 W _ h1 (leBytes_length _ _), leNat_leBytes _ _ h2]
  have rb : ∀ b, i.operands W = [b] → ((pre ++ (encode W i p ++ post))[pre.length + 1]?.getD 0) = b := by
    intro b h1
    rw [e1, ← l1, List.getElem?_append_right (Nat.le_refl _), h1]; simp
  have rL : ∀ n d x, i.operands W = leBytes W n ++ (d :: leBytes W x) → n < 256 ^ W → x < 256 ^ W →
      rd (pre ++ (encode W i p ++ post)) W (pre.length + 1) = n ∧
      ((pre ++ (encode W i p ++ post))[pre.length + 1 + W]?.getD 0) = d ∧
      rd (pre ++ (encode W i p ++ post)) W (pre.length + 1 + W + 1) = x := by
    intro n d x h1 hn hx
    refine ⟨?_, ?_, ?_⟩
    · rw [e1, ← l1, h1, List.append_assoc (leBytes W n), rd_at _ _ _ _ (leBytes_length _ _), leNat_leBytes _ _ hn]
    · rw [e1, ← l1, h1, List.getElem?_append_right (by omega), List.append_assoc (leBytes W n),
        List.getElem?_append_right (by rw [leBytes_length]; omega), leBytes_length]
      have : pre.length + 1 + W - (pre.length + 1) - W = 0 := by omega
      simp
    · have e2 : pre ++ (encode W i p ++ post) =
          (pre ++ [UInt8.ofNat (i.opcode + if p then 128 else 0)] ++ leBytes W n ++ [d]) ++ (leBytes W x ++ post) := by
        rw [e1, h1]; simp
      have l2 : (pre ++ [UInt8.ofNat (i.opcode + if p then 128 else 0)] ++ leBytes W n ++ [d]).length = pre.length + 1 + W + 1 := by
        simp [leBytes_length]; omega
      rw [e2, ← l2, rd_at _ _ _ _ (leBytes_length _ _), leNat_leBytes _ _ hx]
  unfold fetch
  simp only [hb, hop, hp]
  cases i
  case rel r => cases r with
    | cmp c => cases c <;> simp [Ins.opcode, RelOp.num, CmpOp.num, CmpOp.dec, Ins.size, Ins.operands]
    | _ => simp [Ins.opcode, RelOp.num, Ins.size, Ins.operands]
  case chain c t =>
    have := rW t rfl hf
    cases c <;> simp [Ins.opcode, CmpOp.num, CmpOp.dec, Ins.size, Ins.operands, this, leBytes_length, Nat.add_assoc]
  case arith op => cases op <;> simp [Ins.opcode, BinOp.num, BinOp.dec, Ins.size, Ins.operands]
  case assign a x =>
    have := rW x rfl hf
    cases a with
    | aug op => cases op <;> simp [Ins.opcode, AOp.num, BinOp.num, BinOp.dec, Ins.size, Ins.operands, this, leBytes_length, Nat.add_assoc]
    | _ => simp [Ins.opcode, AOp.num, Ins.size, Ins.operands, this, leBytes_length, Nat.add_assoc]
  case num u =>
    have := r1 4 (leBytes 4 u.toNat) rfl (leBytes_length _ _)
    rw [leNat_leBytes _ _ (by have := u.isLt; simpa using this)] at this
    simp [Ins.opcode, Ins.size, Ins.operands, this, leBytes_length, Nat.add_assoc]
  case mk k n =>
    have := rW n rfl hf
    cases k <;> simp [Ins.opcode, MkKind.num, Ins.size, Ins.operands, this, leBytes_length, Nat.add_assoc]
  case unary u => cases u <;> simp [Ins.opcode, UnOp.num, Ins.size, Ins.operands]
  case int b => simp [Ins.opcode, Ins.size, Ins.operands, rb b rfl, Nat.add_assoc]
  case slice b => simp [Ins.opcode, Ins.size, Ins.operands, rb b rfl, Nat.add_assoc]
  case rangeStart n d x =>
    have ⟨h1, h2, h3⟩ := rL n d x rfl hf.1 hf.2
    simp [Ins.opcode, Ins.size, Ins.operands, h1, h2, h3, leBytes_length]; omega
  case rangeStep n d x =>
    have ⟨h1, h2, h3⟩ := rL n d x rfl hf.1 hf.2
    simp [Ins.opcode, Ins.size, Ins.operands, h1, h2, h3, leBytes_length]; omega
  case inStep n d x =>
    have ⟨h1, h2, h3⟩ := rL n d x rfl hf.1 hf.2
    simp [Ins.opcode, Ins.size, Ins.operands, h1, h2, h3, leBytes_length]; omega
  all_goals first
    | (simp [Ins.opcode, Ins.size, Ins.operands]; done)
    | (simp [Ins.opcode, Ins.size, Ins.operands, rW _ rfl hf, leBytes_length, Nat.add_assoc]; done)

end Snek.Vm
