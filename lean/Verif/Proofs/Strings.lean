import Verif.Spec.Strings
import Verif.Proofs.CompRun
/-!
# Scanning compiled code for string constants
-/
namespace Snek.Lang
open Snek.Vm

variable {W : Nat} {conv : BitVec 32 → BitVec 8}

/-- String constant of an instruction. -/
def itemStr (it : Item) : Option Nat :=
  match it.1 with
  | .string o => some o
  | _ => none

/-- Instruction with the string constant replaced. -/
def itemMap (f : Nat → Nat) (it : Item) : Item :=
  match it.1 with
  | .string o => (.string (f o), it.2)
  | _ => it

theorem numIns_str (u : BitVec 32) (p : Bool) : itemStr (numIns conv u, p) = none := by
  rcases numIns_cases conv u with ⟨b, h⟩ | h <;> rw [h] <;> rfl

theorem numIns_map (f : Nat → Nat) (u : BitVec 32) (p : Bool) : itemMap f (numIns conv u, p) = (numIns conv u, p) := by
  rcases numIns_cases conv u with ⟨b, h⟩ | h <;> rw [h] <;> rfl

theorem patchItem_str (k t : Nat) (it : Item) : itemStr (patchItem k t it) = itemStr it := by
  unfold patchItem
  split
  · rename_i f h
    split
    · unfold itemStr; rw [h]; simp only [fwdIns]; split <;> simp_all
      split at * <;> simp_all
    · rfl
  · rfl

theorem patchItem_map (f : Nat → Nat) (k t : Nat) (it : Item) : patchItem k t (itemMap f it) = itemMap f (patchItem k t it) := by
  rcases it with ⟨i, p⟩
  cases i <;> simp only [patchItem, itemMap]
  split
  · simp only [fwdIns]; split <;> rfl
  · rfl

theorem filterMap_patch (k t : Nat) (l : List Item) : (l.map (patchItem k t)).filterMap itemStr = l.filterMap itemStr := by
  induction l with
  | nil => rfl
  | cons x l ih => simp only [List.map_cons, List.filterMap_cons, patchItem_str, ih]

theorem itemMap_size (f : Nat → Nat) (it : Item) : (itemMap f it).1.size W = it.1.size W := by
  rcases it with ⟨i, p⟩
  cases i <;> simp [itemMap, Ins.size, Ins.operands, leBytes_length]

theorem isz_itemMap (f : Nat → Nat) (l : List Item) : isz W (l.map (itemMap f)) = isz W l := by
  induction l with
  | nil => rfl
  | cons x l ih => simp [ih, itemMap_size]

theorem map_patch_itemMap (f : Nat → Nat) (k t : Nat) (l : List Item) :
    (l.map (itemMap f)).map (patchItem k t) = (l.map (patchItem k t)).map (itemMap f) := by
  induction l with
  | nil => rfl
  | cons x l ih => simp only [List.map_cons, ih, patchItem_map]

/-! ## Strings of the code -/

mutual
theorem compE_strs (p : Bool) (base : Nat) (e : Expr) : (compE W conv p base e).filterMap itemStr = strsE e := by
  cases e with
  | num u => simp [compE, strsE, numIns_str]
  | str o => simp [compE, strsE, itemStr]
  | name x => simp [compE, strsE, itemStr]
  | unary op e =>
    have h := fun p b => compE_strs p b e
    simp [compE, strsE, itemStr, h]
  | binary op a b =>
    have h1 := fun p n => compE_strs p n a
    have h2 := fun p n => compE_strs p n b
    simp [compE, strsE, itemStr, h1, h2]
  | and a b =>
    have h1 := fun p n => compE_strs p n a
    have h2 := fun p n => compE_strs p n b
    simp only [compE, strsE, List.filterMap_append, List.filterMap_cons, h1, h2]
    simp [itemStr]
  | or a b =>
    have h1 := fun p n => compE_strs p n a
    have h2 := fun p n => compE_strs p n b
    simp only [compE, strsE, List.filterMap_append, List.filterMap_cons, h1, h2]
    simp [itemStr]
  | cmp a r b more =>
    have h1 := fun p n => compE_strs p n a
    have h2 := fun p n => compE_strs p n b
    have h3 := fun t n => compMore_strs (lk := fun c => .chain c t) (fun _ _ => rfl) n r more
    simp [compE, strsE, h1, h2, h3]
    simp [itemStr]
  | index a b =>
    have h1 := fun p n => compE_strs p n a
    have h2 := fun p n => compE_strs p n b
    simp [compE, strsE, itemStr, h1, h2]
  | slice a b c t =>
    have h1 := fun p n => compE_strs p n a
    have h2 := fun n => compOpt_strs n b
    have h3 := fun n => compOpt_strs n c
    have h4 := fun n => compOpt_strs n t
    simp [compE, strsE, itemStr, h1, h2, h3, h4]
  | call g args named =>
    have h1 := fun p n => compE_strs p n g
    have h2 := fun n => compArgs_strs n args
    have h3 := fun n => compNamed_strs n named
    simp [compE, strsE, itemStr, h1, h2, h3]
  | build k es =>
    have h2 := fun n => compArgs_strs n es
    simp [compE, strsE, itemStr, h2]
theorem compMore_strs {lk : Vm.CmpOp → Ins} (hl : ∀ c p, itemStr (lk c, p) = none) (base : Nat) (r : RelOp) (m : Chain) :
    (compMore W conv lk base r m).filterMap itemStr = strsC m := by
  cases m with
  | nil => simp [compMore, strsC, itemStr]
  | cons r' e rest =>
    have h1 := fun p n => compE_strs p n e
    have h2 := fun n => compMore_strs hl n r' rest
    simp only [compMore, strsC, List.filterMap_cons, List.filterMap_append, h1, h2]
    cases r <;> simp only [hl]
theorem compOpt_strs (base : Nat) (o : OptE) : (compOpt W conv base o).filterMap itemStr = strsO o := by
  cases o with
  | none => rfl
  | some e =>
    have h1 := fun p n => compE_strs p n e
    simp [compOpt, strsO, h1]
theorem compArgs_strs (base : Nat) (es : Exprs) : (compArgs W conv base es).filterMap itemStr = strsA es := by
  cases es with
  | nil => rfl
  | cons e es =>
    have h1 := fun p n => compE_strs p n e
    have h2 := fun n => compArgs_strs n es
    simp [compArgs, strsA, h1, h2]
theorem compNamed_strs (base : Nat) (es : Named) : (compNamed W conv base es).filterMap itemStr = strsN es := by
  cases es with
  | nil => rfl
  | cons x e es =>
    have h1 := fun p n => compE_strs p n e
    have h2 := fun n => compNamed_strs n es
    simp [compNamed, strsN, h1, h2, numIns_str]
end

mutual
theorem compS_strs (fd base : Nat) (s : Stmt) : (compS W conv fd base s).filterMap itemStr = strsS s := by
  have hE : ∀ p n e, (compE W conv p n e).filterMap itemStr = strsE e := fun p n e => compE_strs p n e
  have hA : ∀ n es, (compArgs W conv n es).filterMap itemStr = strsA es := fun n e => compArgs_strs n e
  cases s with
  | seq a b =>
    have h1 := fun n => compS_strs fd n a
    have h2 := fun n => compS_strs fd n b
    simp [compS, strsS, h1, h2]
  | expr e => simp [compS, strsS, hE]
  | assign op x e => simp [compS, strsS, hE, itemStr]
  | assignIdx op a i e => simp [compS, strsS, hE, itemStr]
  | ret o =>
    cases o with
    | none => simp [compS, strsS, strsO, itemStr]
    | some e => simp [compS, strsS, strsO, hE, itemStr]
  | delIdx a i => simp [compS, strsS, hE, itemStr]
  | assert e => simp [compS, strsS, hE, itemStr]
  | ifs c t els =>
    have h1 := fun n => compS_strs fd n t
    have h2 := fun n => compElse_strs fd n els
    simp only [compS, strsS, List.filterMap_append, List.filterMap_cons, hE, filterMap_patch, h1, h2, List.map_append]
    rfl
  | whil c body els =>
    have h1 := fun n => compS_strs fd n body
    have h2 := fun n => compS_strs fd n els
    simp only [compS, strsS, List.filterMap_append, List.filterMap_cons, hE, filterMap_patch, h1, h2]
    rfl
  | forRange x args body els =>
    have h1 := fun n => compS_strs (fd + 1) n body
    have h2 := fun n => compS_strs fd n els
    simp only [compS, strsS, List.filterMap_append, List.filterMap_cons, hE, hA, filterMap_patch, h1, h2]
    rfl
  | forIn x e body els =>
    have h1 := fun n => compS_strs (fd + 1) n body
    have h2 := fun n => compS_strs fd n els
    simp only [compS, strsS, List.filterMap_append, List.filterMap_cons, hE, filterMap_patch, h1, h2, numIns_str]
    rfl
  | _ => rfl
theorem compElse_strs (fd base : Nat) (s : Else) : (compElse W conv fd base s).filterMap itemStr = strsElse s := by
  have hE : ∀ p n e, (compE W conv p n e).filterMap itemStr = strsE e := fun p n e => compE_strs p n e
  cases s with
  | none => rfl
  | els s =>
    have h1 := fun n => compS_strs fd n s
    simp only [compElse, strsElse, List.filterMap_cons, h1]
    rfl
  | elif l c t rest =>
    have h1 := fun n => compS_strs fd n t
    have h2 := fun n => compElse_strs fd n rest
    simp only [compElse, strsElse, List.filterMap_append, List.filterMap_cons, hE, h1, h2]
    rfl
end

theorem compDefaults_strs (base : Nat) (ds : Named) : (compDefaults W conv base ds).filterMap itemStr = strsN ds := by
  cases ds with
  | nil => rfl
  | cons x e rest =>
    have h := fun n => compDefaults_strs n rest
    simp only [compDefaults, strsN, List.filterMap_append, List.filterMap_cons, compE_strs, h]
    rfl

/-! ## Code of the program with other strings -/

theorem mapStrO_isSome (f : Nat → Nat) (o : OptE) : (mapStrO f o).isSome = o.isSome := by cases o <;> rfl

theorem mapStrA_length (f : Nat → Nat) (es : Exprs) : (mapStrA f es).length = es.length := by
  cases es with
  | nil => rfl
  | cons e es => have := mapStrA_length f es; simp [mapStrA, Exprs.length, this]

theorem mapStrN_length (f : Nat → Nat) (es : Named) : (mapStrN f es).length = es.length := by
  cases es with
  | nil => rfl
  | cons x e es => have := mapStrN_length f es; simp [mapStrN, Named.length, this]

mutual
theorem compE_mapStr (f : Nat → Nat) (p : Bool) (base : Nat) (e : Expr) :
    compE W conv p base (mapStrE f e) = (compE W conv p base e).map (itemMap f) := by
  cases e with
  | num u => simp [compE, mapStrE, numIns_map]
  | str o => simp [compE, mapStrE, itemMap]
  | name x => simp [compE, mapStrE, itemMap]
  | unary op e =>
    have h := fun p b => compE_mapStr f p b e
    simp [compE, mapStrE, itemMap, h]
  | binary op a b =>
    have h1 := fun p n => compE_mapStr f p n a
    have h2 := fun p n => compE_mapStr f p n b
    simp [compE, mapStrE, itemMap, h1, h2, isz_itemMap]
  | and a b =>
    have h1 := fun p n => compE_mapStr f p n a
    have h2 := fun p n => compE_mapStr f p n b
    simp [compE, mapStrE, itemMap, h1, h2, isz_itemMap]
  | or a b =>
    have h1 := fun p n => compE_mapStr f p n a
    have h2 := fun p n => compE_mapStr f p n b
    simp [compE, mapStrE, itemMap, h1, h2, isz_itemMap]
  | cmp a r b more =>
    have h1 := fun p n => compE_mapStr f p n a
    have h2 := fun p n => compE_mapStr f p n b
    have h3 := fun t n => compMore_mapStr f (lk := fun c => .chain c t) (fun _ _ => rfl) n r more
    simp only [compE, mapStrE, h1, h2, h3, isz_itemMap, List.map_append]
    rfl
  | index a b =>
    have h1 := fun p n => compE_mapStr f p n a
    have h2 := fun p n => compE_mapStr f p n b
    simp [compE, mapStrE, itemMap, h1, h2, isz_itemMap]
  | slice a b c t =>
    have h1 := fun p n => compE_mapStr f p n a
    have h2 := fun n => compOpt_mapStr f n b
    have h3 := fun n => compOpt_mapStr f n c
    have h4 := fun n => compOpt_mapStr f n t
    simp [compE, mapStrE, itemMap, h1, h2, h3, h4, isz_itemMap, sliceFlags, mapStrO_isSome]
  | call g args named =>
    have h1 := fun p n => compE_mapStr f p n g
    have h2 := fun n => compArgs_mapStr f n args
    have h3 := fun n => compNamed_mapStr f n named
    simp [compE, mapStrE, itemMap, h1, h2, h3, isz_itemMap, mapStrA_length, mapStrN_length]
  | build k es =>
    have h2 := fun n => compArgs_mapStr f n es
    simp [compE, mapStrE, itemMap, h2, mapStrA_length]
theorem compMore_mapStr (f : Nat → Nat) {lk : Vm.CmpOp → Ins} (hl : ∀ c p, itemMap f (lk c, p) = (lk c, p)) (base : Nat) (r : RelOp)
    (m : Chain) : compMore W conv lk base r (mapStrC f m) = (compMore W conv lk base r m).map (itemMap f) := by
  cases m with
  | nil => simp [compMore, mapStrC, itemMap]
  | cons r' e rest =>
    have h1 := fun p n => compE_mapStr f p n e
    have h2 := fun n => compMore_mapStr f hl n r' rest
    simp only [compMore, mapStrC, List.map_cons, List.map_append, h1, h2, isz_itemMap]
    cases r <;> simp only [hl]
theorem compOpt_mapStr (f : Nat → Nat) (base : Nat) (o : OptE) :
    compOpt W conv base (mapStrO f o) = (compOpt W conv base o).map (itemMap f) := by
  cases o with
  | none => rfl
  | some e =>
    have h1 := fun p n => compE_mapStr f p n e
    simp [compOpt, mapStrO, h1]
theorem compArgs_mapStr (f : Nat → Nat) (base : Nat) (es : Exprs) :
    compArgs W conv base (mapStrA f es) = (compArgs W conv base es).map (itemMap f) := by
  cases es with
  | nil => rfl
  | cons e es =>
    have h1 := fun p n => compE_mapStr f p n e
    have h2 := fun n => compArgs_mapStr f n es
    simp [compArgs, mapStrA, h1, h2, isz_itemMap]
theorem compNamed_mapStr (f : Nat → Nat) (base : Nat) (es : Named) :
    compNamed W conv base (mapStrN f es) = (compNamed W conv base es).map (itemMap f) := by
  cases es with
  | nil => rfl
  | cons x e es =>
    have h1 := fun p n => compE_mapStr f p n e
    have h2 := fun n => compNamed_mapStr f n es
    simp [compNamed, mapStrN, h1, h2, numIns_map, isz_itemMap]
end

theorem elseOff_map (f : Nat → Nat) (base : Nat) (s : Else) : elseOff W base (mapStrElse f s) = elseOff W base s := by
  cases s <;> rfl

mutual
theorem compS_mapStr (f : Nat → Nat) (fd base : Nat) (s : Stmt) :
    compS W conv fd base (mapStrS f s) = (compS W conv fd base s).map (itemMap f) := by
  have hE : ∀ p n e, compE W conv p n (mapStrE f e) = (compE W conv p n e).map (itemMap f) := fun p n e => compE_mapStr f p n e
  have hA : ∀ n es, compArgs W conv n (mapStrA f es) = (compArgs W conv n es).map (itemMap f) := fun n e => compArgs_mapStr f n e
  cases s with
  | seq a b =>
    have h1 := fun n => compS_mapStr f fd n a
    have h2 := fun n => compS_mapStr f fd n b
    simp [compS, mapStrS, h1, h2, isz_itemMap]
  | expr e => simp [compS, mapStrS, hE]
  | assign op x e => simp [compS, mapStrS, hE, itemMap]
  | assignIdx op a i e => simp [compS, mapStrS, hE, itemMap, isz_itemMap]
  | ret o =>
    cases o with
    | none => simp [compS, mapStrS, mapStrO, itemMap]
    | some e => simp [compS, mapStrS, mapStrO, hE, itemMap]
  | delIdx a i => simp [compS, mapStrS, hE, itemMap, isz_itemMap]
  | assert e => simp [compS, mapStrS, hE, itemMap]
  | ifs c t els =>
    have h1 := fun n => compS_mapStr f fd n t
    have h2 := fun n => compElse_mapStr f fd n els
    simp only [compS, mapStrS, List.map_append, List.map_cons, hE, map_patch_itemMap, h1, h2, isz_itemMap, elseOff_map]
    rfl
  | whil c body els =>
    have h1 := fun n => compS_mapStr f fd n body
    have h2 := fun n => compS_mapStr f fd n els
    simp only [compS, mapStrS, List.map_append, List.map_cons, hE, map_patch_itemMap, h1, h2, isz_itemMap]
    rfl
  | forRange x args body els =>
    have h1 := fun n => compS_mapStr f (fd + 1) n body
    have h2 := fun n => compS_mapStr f fd n els
    simp only [compS, mapStrS, List.map_append, List.map_cons, hE, hA, map_patch_itemMap, h1, h2, isz_itemMap, mapStrA_length]
    rfl
  | forIn x e body els =>
    have h1 := fun n => compS_mapStr f (fd + 1) n body
    have h2 := fun n => compS_mapStr f fd n els
    simp only [compS, mapStrS, List.map_append, List.map_cons, hE, map_patch_itemMap, h1, h2, isz_itemMap, numIns_map]
    rfl
  | _ => rfl
theorem compElse_mapStr (f : Nat → Nat) (fd base : Nat) (s : Else) :
    compElse W conv fd base (mapStrElse f s) = (compElse W conv fd base s).map (itemMap f) := by
  have hE : ∀ p n e, compE W conv p n (mapStrE f e) = (compE W conv p n e).map (itemMap f) := fun p n e => compE_mapStr f p n e
  cases s with
  | none => rfl
  | els s =>
    have h1 := fun n => compS_mapStr f fd n s
    simp only [compElse, mapStrElse, List.map_cons, h1]
    rfl
  | elif l c t rest =>
    have h1 := fun n => compS_mapStr f fd n t
    have h2 := fun n => compElse_mapStr f fd n rest
    simp only [compElse, mapStrElse, List.map_append, List.map_cons, hE, h1, h2, isz_itemMap, elseOff_map]
    rfl
end

theorem compDefaults_mapStr (f : Nat → Nat) (base : Nat) (ds : Named) :
    compDefaults W conv base (mapStrN f ds) = (compDefaults W conv base ds).map (itemMap f) := by
  cases ds with
  | nil => rfl
  | cons x e rest =>
    have h := fun n => compDefaults_mapStr f n rest
    simp only [compDefaults, mapStrN, List.map_append, List.map_cons, compE_mapStr, h, isz_itemMap]
    rfl

/-! ## The scanners -/

theorem drop_head (pre : List UInt8) (x : UInt8) (post : List UInt8) : (pre ++ x :: post)[pre.length]?.getD 0 = x := by simp

/-- A byte string that the scanners step over. -/
theorem strings_skip {W : Nat} (bs : List UInt8) (hb : ∀ b ∈ bs, operandSize W (b.toNat % 128) = 0 ∧ b.toNat % 128 ≠ 45)
    (pre post : List UInt8) : codeStrings W (pre ++ (bs ++ post)) pre.length = codeStrings W (pre ++ (bs ++ post)) (pre.length + bs.length) := by
  induction bs generalizing pre with
  | nil => simp
  | cons b bs ih =>
    rw [codeStrings.eq_def]
    have h0 := hb b (by simp)
    have hx : ((pre ++ (b :: bs ++ post))[pre.length]?.getD 0) = b := by simp
    rw [if_pos (by simp)]
    simp only [hx, h0.1, Nat.add_zero, if_neg h0.2]
    have := ih (fun x h => hb x (by simp [h])) (pre ++ [b])
    simp only [List.length_append, List.length_cons, List.length_nil, List.append_assoc, List.singleton_append, Nat.zero_add] at this
    simp only [List.cons_append, List.length_cons] at this ⊢
    rw [this]
    congr 1; omega

/-- Operand bytes of a dictionary display look like instructions without operands. -/
theorem dict_bytes {W n : Nat} (hW : 1 ≤ W) (h : DictOk n) :
    ∀ b ∈ encode W (.mk .dict n) p, operandSize W (b.toNat % 128) = 0 ∧ b.toNat % 128 ≠ 45 := by
  obtain ⟨h1, h2, h3, h4, h5, h6⟩ := h
  intro b hb
  simp only [encode, Ins.opcode, MkKind.num, Ins.operands, leBytes_small hW (show n < 256 by omega), List.mem_cons] at hb
  rcases hb with rfl | rfl | hb
  · cases p <;> simp [operandSize]
  · have : (UInt8.ofNat n).toNat % 128 = n := by simp; omega
    rw [this]
    unfold operandSize
    constructor
    · repeat' split
      all_goals first | rfl | omega
    · omega
  · rw [List.eq_of_mem_replicate hb]; simp [operandSize]

theorem strings_item {W : Nat} (hW : 1 ≤ W) (it : Item) (hs : ScanOk it.1) (hf : it.1.Fits W) (pre post : List UInt8) :
    codeStrings W (pre ++ (encode W it.1 it.2 ++ post)) pre.length =
      (itemStr it).toList ++ codeStrings W (pre ++ (encode W it.1 it.2 ++ post)) (pre.length + it.1.size W) := by
  rcases it with ⟨i, p⟩
  by_cases hd : ∃ n, i = .mk .dict n
  · obtain ⟨n, rfl⟩ := hd
    have := strings_skip (encode W (.mk .dict n) p) (dict_bytes hW hs) pre post
    rw [encode_length] at this
    rw [this]; rfl
  · have hd' : ∀ n, i ≠ .mk .dict n := fun n h => hd ⟨n, h⟩
    have hop := operandSize_eq W i hd'
    have hx := encode_head W i p pre post
    have hlt := i.opcode_lt
    have hop2 : ((pre ++ (encode W i p ++ post))[pre.length]?.getD 0).toNat % 128 = i.opcode := by
      rw [hx]; cases p <;> simp <;> omega
    have hpos := i.size_pos W
    rw [codeStrings.eq_def, if_pos (by simp [encode_length]; omega)]
    simp only [hop2, hop]
    have hsz : pre.length + 1 + (i.operands W).length = pre.length + i.size W := by unfold Ins.size; omega
    rw [hsz]
    by_cases h45 : i.opcode = 45
    · have : ∃ o, i = .string o := by
        cases i <;> simp [Ins.opcode] at h45 ⊢
        case rel r => cases r <;> simp [RelOp.num] at h45; rename_i c; cases c <;> simp [CmpOp.num] at h45
        case chain c _ => cases c <;> simp [CmpOp.num] at h45
        case arith op => cases op <;> simp [BinOp.num] at h45
        case assign a _ => cases a <;> simp [AOp.num] at h45; rename_i op; cases op <;> simp [BinOp.num] at h45
        case mk k _ => cases k <;> simp [MkKind.num] at h45
        case unary u => cases u <;> simp [UnOp.num] at h45
      obtain ⟨o, rfl⟩ := this
      rw [if_pos h45]
      have hr : rd (pre ++ (encode W (.string o) p ++ post)) W (pre.length + 1) = o := by
        have := rd_at (pre ++ [UInt8.ofNat (45 + if p then 128 else 0)]) (leBytes W o) post W (leBytes_length _ _)
        simp only [encode, Ins.opcode, Ins.operands]
        simp only [List.length_append, List.length_cons, List.length_nil, List.append_assoc, List.singleton_append,
          Nat.zero_add] at this
        rw [List.cons_append, this]
        exact leNat_leBytes W o hf
      rw [hr]; rfl
    · rw [if_neg h45]
      have : itemStr (i, p) = none := by
        unfold itemStr
        cases i <;> first | rfl | simp [Ins.opcode] at h45
      rw [this]; rfl

theorem opcode_string (i : Ins) (h45 : i.opcode = 45) : ∃ o, i = .string o := by
  cases i <;> simp [Ins.opcode] at h45 ⊢
  case rel r => cases r <;> simp [RelOp.num] at h45; rename_i c; cases c <;> simp [CmpOp.num] at h45
  case chain c _ => cases c <;> simp [CmpOp.num] at h45
  case arith op => cases op <;> simp [BinOp.num] at h45
  case assign a _ => cases a <;> simp [AOp.num] at h45; rename_i op; cases op <;> simp [BinOp.num] at h45
  case mk k _ => cases k <;> simp [MkKind.num] at h45
  case unary u => cases u <;> simp [UnOp.num] at h45

theorem move_skip {W : Nat} (f : Nat → Nat) (bs : List UInt8)
    (hb : ∀ b ∈ bs, operandSize W (b.toNat % 128) = 0 ∧ b.toNat % 128 ≠ 45) (pre post : List UInt8) (stop : Nat)
    (hstop : pre.length + bs.length ≤ stop) :
    codeMove W f (pre ++ (bs ++ post)) pre.length stop = codeMove W f (pre ++ (bs ++ post)) (pre.length + bs.length) stop := by
  induction bs generalizing pre with
  | nil => simp
  | cons b bs ih =>
    rw [codeMove.eq_def]
    have h0 := hb b (by simp)
    have hx : ((pre ++ (b :: bs ++ post))[pre.length]?.getD 0) = b := by simp
    rw [if_pos (by simp at hstop; omega)]
    simp only [hx, h0.1, Nat.add_zero, if_neg h0.2]
    have := ih (fun x h => hb x (by simp [h])) (pre ++ [b]) (by simp at hstop ⊢; omega)
    simp only [List.length_append, List.length_cons, List.length_nil, List.append_assoc, List.singleton_append, Nat.zero_add] at this
    simp only [List.cons_append, List.length_cons] at this ⊢
    rw [this]
    congr 1; omega

theorem move_item {W : Nat} (hW : 1 ≤ W) (f : Nat → Nat) (it : Item) (hs : ScanOk it.1) (hf : it.1.Fits W) (pre post : List UInt8)
    (stop : Nat) (hstop : pre.length + it.1.size W ≤ stop) :
    codeMove W f (pre ++ (encode W it.1 it.2 ++ post)) pre.length stop =
      codeMove W f (pre ++ (encode W (itemMap f it).1 (itemMap f it).2 ++ post)) (pre.length + it.1.size W) stop := by
  rcases it with ⟨i, p⟩
  by_cases hd : ∃ n, i = .mk .dict n
  · obtain ⟨n, rfl⟩ := hd
    have := move_skip f (encode W (.mk .dict n) p) (dict_bytes hW hs) pre post stop (by rw [encode_length]; exact hstop)
    rw [encode_length] at this
    rw [this]; rfl
  · have hd' : ∀ n, i ≠ .mk .dict n := fun n h => hd ⟨n, h⟩
    have hop := operandSize_eq W i hd'
    have hx := encode_head W i p pre post
    have hlt := i.opcode_lt
    have hop2 : ((pre ++ (encode W i p ++ post))[pre.length]?.getD 0).toNat % 128 = i.opcode := by
      rw [hx]; cases p <;> simp <;> omega
    have hpos := i.size_pos W
    rw [codeMove.eq_def, if_pos (by simp only [] at hstop; omega)]
    simp only [hop2, hop]
    have hsz : pre.length + 1 + (i.operands W).length = pre.length + i.size W := by unfold Ins.size; omega
    rw [hsz]
    by_cases h45 : i.opcode = 45
    · obtain ⟨o, rfl⟩ := opcode_string i h45
      rw [if_pos h45]
      have hr : rd (pre ++ (encode W (.string o) p ++ post)) W (pre.length + 1) = o := by
        have := rd_at (pre ++ [UInt8.ofNat (45 + if p then 128 else 0)]) (leBytes W o) post W (leBytes_length _ _)
        simp only [encode, Ins.opcode, Ins.operands]
        simp only [List.length_append, List.length_cons, List.length_nil, List.append_assoc, List.singleton_append,
          Nat.zero_add] at this
        rw [List.cons_append, this]
        exact leNat_leBytes W o hf
      rw [hr]
      have ho := overwrite_at (pre ++ [UInt8.ofNat (45 + if p then 128 else 0)]) (leBytes W o) post (leBytes W (f o))
        (by simp [leBytes_length]) (pre.length + 1) (by simp)
      simp only [List.append_assoc, List.singleton_append] at ho
      have e : pre ++ (encode W (.string o) p ++ post) =
          pre ++ UInt8.ofNat (45 + if p then 128 else 0) :: (leBytes W o ++ post) := rfl
      rw [e, ho]
      rfl
    · rw [if_neg h45]
      have : itemMap f (i, p) = (i, p) := by
        unfold itemMap
        cases i <;> first | rfl | simp [Ins.opcode] at h45
      rw [this]

theorem move_items {W : Nat} (hW : 1 ≤ W) (f : Nat → Nat) (l : List Item) (hs : ∀ it ∈ l, ScanOk it.1) (hf : ∀ it ∈ l, it.1.Fits W)
    (pre : List Item) :
    codeMove W f (enc W (pre ++ l)) (isz W pre) (isz W pre + isz W l) = enc W (pre ++ l.map (itemMap f)) := by
  induction l generalizing pre with
  | nil => rw [codeMove.eq_def, if_neg (by simp)]; rfl
  | cons it l ih =>
    have h1 := move_item hW f it (hs it (by simp)) (hf it (by simp)) (enc W pre) (enc W l) (isz W pre + isz W (it :: l))
      (by simp)
    have e : enc W pre ++ (encode W it.1 it.2 ++ enc W l) = enc W (pre ++ it :: l) := by simp [enc]
    have e2 : enc W pre ++ (encode W (itemMap f it).1 (itemMap f it).2 ++ enc W l) = enc W ((pre ++ [itemMap f it]) ++ l) := by
      simp [enc]
    rw [e, e2, enc_length] at h1
    rw [h1]
    have h2 := ih (fun x hx => hs x (by simp [hx])) (fun x hx => hf x (by simp [hx])) (pre ++ [itemMap f it])
    simp only [isz_append, isz_cons, isz_nil, Nat.add_zero, itemMap_size] at h2
    rw [isz_cons, ← Nat.add_assoc, h2]
    simp

theorem strings_items {W : Nat} (hW : 1 ≤ W) (l : List Item) (hs : ∀ it ∈ l, ScanOk it.1) (hf : ∀ it ∈ l, it.1.Fits W)
    (pre : List Item) : codeStrings W (enc W (pre ++ l)) (isz W pre) = l.filterMap itemStr := by
  induction l generalizing pre with
  | nil => rw [codeStrings.eq_def, if_neg (by simp)]; rfl
  | cons it l ih =>
    have h1 := strings_item hW it (hs it (by simp)) (hf it (by simp)) (enc W pre) (enc W l)
    have e : enc W pre ++ (encode W it.1 it.2 ++ enc W l) = enc W (pre ++ it :: l) := by simp [enc]
    rw [e, enc_length] at h1
    rw [h1]
    have h2 := ih (fun x hx => hs x (by simp [hx])) (fun x hx => hf x (by simp [hx])) (pre ++ [it])
    simp only [List.append_assoc, List.singleton_append, isz_append, isz_cons, isz_nil, Nat.add_zero] at h2
    rw [h2]
    cases h : itemStr it <;> simp [h]

/-! ## Replacing strings keeps programs well formed -/

mutual
theorem wfE_mapStr {f : Nat → Nat} (hf : ∀ o, o < 256 ^ W → f o < 256 ^ W) (z : Bool) (e : Expr) (h : WfE W z e) : WfE W z (mapStrE f e) := by
  cases e with
  | num u => exact h
  | str o => simp only [mapStrE, WfE] at h ⊢; exact hf _ h
  | name x => exact h
  | unary op e => simp only [mapStrE, WfE] at h ⊢; exact wfE_mapStr hf z e h
  | binary op a b => simp only [mapStrE, WfE] at h ⊢; exact ⟨wfE_mapStr hf z a h.1, wfE_mapStr hf z b h.2⟩
  | and a b => simp only [mapStrE, WfE] at h ⊢; exact ⟨wfE_mapStr hf z a h.1, wfE_mapStr hf z b h.2⟩
  | or a b => simp only [mapStrE, WfE] at h ⊢; exact ⟨wfE_mapStr hf z a h.1, wfE_mapStr hf z b h.2⟩
  | cmp a r b more =>
    simp only [mapStrE, WfE] at h ⊢
    exact ⟨wfE_mapStr hf true a h.1, wfE_mapStr hf true b h.2.1, wfC_mapStr hf r more h.2.2⟩
  | index a b => simp only [mapStrE, WfE] at h ⊢; exact ⟨wfE_mapStr hf z a h.1, wfE_mapStr hf z b h.2⟩
  | slice a b c t =>
    simp only [mapStrE, WfE] at h ⊢
    exact ⟨wfE_mapStr hf z a h.1, wfO_mapStr hf z b h.2.1, wfO_mapStr hf z c h.2.2.1, wfO_mapStr hf z t h.2.2.2⟩
  | call g args named =>
    simp only [mapStrE, WfE, mapStrA_length, mapStrN_length] at h ⊢
    exact ⟨wfE_mapStr hf z g h.1, wfA_mapStr hf z args h.2.1, wfN_mapStr hf z named h.2.2.1, h.2.2.2⟩
  | build k es =>
    simp only [mapStrE, WfE, mapStrA_length] at h ⊢
    exact ⟨wfA_mapStr hf z es h.1, h.2⟩
theorem wfC_mapStr {f : Nat → Nat} (hf : ∀ o, o < 256 ^ W → f o < 256 ^ W) (r : RelOp) (m : Chain) (h : WfChain W r m) :
    WfChain W r (mapStrC f m) := by
  cases m with
  | nil => exact h
  | cons r' e rest =>
    simp only [mapStrC, WfChain] at h ⊢
    exact ⟨h.1, wfE_mapStr hf true e h.2.1, wfC_mapStr hf r' rest h.2.2⟩
theorem wfO_mapStr {f : Nat → Nat} (hf : ∀ o, o < 256 ^ W → f o < 256 ^ W) (z : Bool) (o : OptE) (h : WfOpt W z o) :
    WfOpt W z (mapStrO f o) := by
  cases o with
  | none => exact h
  | some e => simp only [mapStrO, WfOpt] at h ⊢; exact wfE_mapStr hf z e h
theorem wfA_mapStr {f : Nat → Nat} (hf : ∀ o, o < 256 ^ W → f o < 256 ^ W) (z : Bool) (es : Exprs) (h : WfArgs W z es) :
    WfArgs W z (mapStrA f es) := by
  cases es with
  | nil => exact h
  | cons e es => simp only [mapStrA, WfArgs] at h ⊢; exact ⟨wfE_mapStr hf z e h.1, wfA_mapStr hf z es h.2⟩
theorem wfN_mapStr {f : Nat → Nat} (hf : ∀ o, o < 256 ^ W → f o < 256 ^ W) (z : Bool) (es : Named) (h : WfNamed W z es) :
    WfNamed W z (mapStrN f es) := by
  cases es with
  | nil => exact h
  | cons x e es =>
    simp only [mapStrN, WfNamed] at h ⊢
    exact ⟨h.1, h.2.1, wfE_mapStr hf z e h.2.2.1, wfN_mapStr hf z es h.2.2.2⟩
end

mutual
theorem wfS_mapStr {f : Nat → Nat} (hf : ∀ o, o < 256 ^ W → f o < 256 ^ W) (z : Bool) (s : Stmt) (h : WfS W z s) : WfS W z (mapStrS f s) := by
  have hE := fun z e => wfE_mapStr (W := W) hf z e
  have hA := fun z e => wfA_mapStr (W := W) hf z e
  cases s with
  | seq a b => simp only [mapStrS, WfS] at h ⊢; exact ⟨wfS_mapStr hf z a h.1, wfS_mapStr hf z b h.2⟩
  | expr e => simp only [mapStrS, WfS] at h ⊢; exact hE _ _ h
  | assign op x e => simp only [mapStrS, WfS] at h ⊢; exact ⟨h.1, h.2.1, hE _ _ h.2.2⟩
  | assignIdx op a i e => simp only [mapStrS, WfS] at h ⊢; exact ⟨hE _ _ h.1, hE _ _ h.2.1, hE _ _ h.2.2⟩
  | ret o => simp only [mapStrS, WfS] at h ⊢; exact wfO_mapStr hf z o h
  | delIdx a i => simp only [mapStrS, WfS] at h ⊢; exact ⟨hE _ _ h.1, hE _ _ h.2⟩
  | assert e => simp only [mapStrS, WfS] at h ⊢; exact hE _ _ h
  | ifs c t els =>
    simp only [mapStrS, WfS] at h ⊢
    exact ⟨hE _ _ h.1, wfS_mapStr hf true t h.2.1, wfElse_mapStr hf els h.2.2⟩
  | whil c body els =>
    simp only [mapStrS, WfS] at h ⊢
    exact ⟨hE _ _ h.1, wfS_mapStr hf true body h.2.1, wfS_mapStr hf z els h.2.2⟩
  | forRange x args body els =>
    simp only [mapStrS, WfS, mapStrA_length] at h ⊢
    exact ⟨h.1, h.2.1, h.2.2.1, hA _ _ h.2.2.2.1, wfS_mapStr hf true body h.2.2.2.2.1, wfS_mapStr hf z els h.2.2.2.2.2⟩
  | forIn x e body els =>
    simp only [mapStrS, WfS] at h ⊢
    exact ⟨h.1, h.2.1, hE _ _ h.2.2.1, wfS_mapStr hf true body h.2.2.2.1, wfS_mapStr hf z els h.2.2.2.2⟩
  | skip => exact h
  | line n => exact h
  | brk => exact h
  | cont => exact h
  | global x => exact h
  | del x => exact h
theorem wfElse_mapStr {f : Nat → Nat} (hf : ∀ o, o < 256 ^ W → f o < 256 ^ W) (s : Else) (h : WfElse W s) :
    WfElse W (mapStrElse f s) := by
  cases s with
  | none => exact h
  | els s => simp only [mapStrElse, WfElse] at h ⊢; exact wfS_mapStr hf true s h
  | elif l c t rest =>
    simp only [mapStrElse, WfElse] at h ⊢
    exact ⟨h.1, wfE_mapStr hf true c h.2.1, wfS_mapStr hf true t h.2.2.1, wfElse_mapStr hf rest h.2.2.2⟩
end

theorem startsLine_mapStr (f : Nat → Nat) (s : Stmt) : startsLine (mapStrS f s) = startsLine s := by
  cases s with
  | seq a b => have := startsLine_mapStr f a; simp [mapStrS, startsLine, this]
  | _ => simp [mapStrS, startsLine]

mutual
theorem leftCmp_mapStr (f : Nat → Nat) (e : Expr) : leftCmp (mapStrE f e) = leftCmp e := by
  cases e with
  | unary op e => have := leftCmp_mapStr f e; simp [mapStrE, leftCmp, this]
  | binary op a b => have := leftCmp_mapStr f a; simp [mapStrE, leftCmp, this]
  | and a b => have := leftCmp_mapStr f a; simp [mapStrE, leftCmp, this]
  | or a b => have := leftCmp_mapStr f a; simp [mapStrE, leftCmp, this]
  | index a b => have := leftCmp_mapStr f a; simp [mapStrE, leftCmp, this]
  | slice a b c t => have := leftCmp_mapStr f a; simp [mapStrE, leftCmp, this]
  | call a b c => have := leftCmp_mapStr f a; simp [mapStrE, leftCmp, this]
  | build k es => have := leftArgs_mapStr f es; simp [mapStrE, leftCmp, this]
  | _ => simp [mapStrE, leftCmp]
theorem leftArgs_mapStr (f : Nat → Nat) (es : Exprs) : leftArgs (mapStrA f es) = leftArgs es := by
  cases es with
  | nil => rfl
  | cons e es => have := leftCmp_mapStr f e; simp [mapStrA, leftArgs, this]
end

/-! ## The code of commands and functions -/

theorem emitCommand_enc (hW : 2 ≤ W) (s : Stmt) {z : Bool} (wf : WfS W z s) (hl : startsLine s = true) :
    emitCommand W conv s = enc W (compS W conv 0 0 s) := by
  have hr := emitS_rep (conv := conv) hW 0 s wf Rep.empty (.inr hl)
  simp only [List.nil_append, isz_nil] at hr
  exact hr.bytes

theorem emitDef_enc (hW : 2 ≤ W) (f : FunDef) {z z' : Bool} (wd : WfNamed W z f.defaults) (wb : WfS W z' f.body)
    (hfirst : ∀ x e rest, f.defaults = .cons x e rest → leftCmp e = false) (hl : startsLine f.body = true) :
    ∃ l, (l = compDefaults W conv 0 f.defaults ++ compS W conv 0 (isz W (compDefaults W conv 0 f.defaults)) f.body) ∧
      ((∃ init, l = init ++ [(.ret, false)] ∧ emitDef W conv f = enc W init) ∨
       ((∀ init, l ≠ init ++ [(.ret, false)]) ∧ emitDef W conv f = enc W (l ++ [(.null, false)]))) := by
  refine ⟨_, rfl, ?_⟩
  have h1 := emitDefaults_rep (conv := conv) hW f.defaults wd Rep.empty (.inr hfirst)
  simp only [List.nil_append, isz_nil] at h1
  have h2 := emitS_rep (conv := conv) hW 0 f.body wb h1 (.inr hl)
  have hpos := startsLine_pos (W := W) (conv := conv) (fd := 0) (base := isz W (compDefaults W conv 0 f.defaults)) f.body hl
  unfold emitDef
  generalize emitS W conv 0 f.body (emitDefaults W conv f.defaults Buf.empty) = b at *
  generalize compDefaults W conv 0 f.defaults = cd at *
  generalize compS W conv 0 (isz W cd) f.body = cs at *
  have hne : cd ++ cs ≠ [] := by
    intro h0; rw [List.append_eq_nil_iff] at h0; rw [h0.2] at hpos; simp at hpos
  obtain ⟨init, ⟨i, p⟩, hlast⟩ : ∃ init it, cd ++ cs = init ++ [it] :=
    ⟨(cd ++ cs).dropLast, (cd ++ cs).getLast hne, (List.dropLast_concat_getLast hne).symm⟩
  have hprev := h2.prev hne
  rw [hlast, List.dropLast_concat] at hprev
  have hbyte : (b.bytes[b.prev]?.getD 0).toNat = i.opcode + if p then 128 else 0 := by
    rw [hprev, h2.bytes, hlast]
    have := encode_head W i p (enc W init) []
    simpa [enc] using this
  simp only [hbyte]
  by_cases hret : i.opcode + (if p then 128 else 0) = 65
  · simp only [hret, if_true]
    have hp : p = false := by cases p <;> simp at hret ⊢
    subst hp
    have hi := opcode_ret i (by simpa using hret)
    subst hi
    refine .inl ⟨init, hlast, ?_⟩
    simp only [Buf.deletePrev]
    rw [hprev, h2.bytes, hlast]; simp
  · simp only [hret, if_false]
    refine .inr ⟨fun init' h => ?_, ?_⟩
    · rw [hlast] at h
      have := (List.append_inj' h rfl).2
      simp at this
      rw [this.1, this.2] at hret
      exact hret rfl
    · exact (h2.add .null).bytes

end Snek.Lang
