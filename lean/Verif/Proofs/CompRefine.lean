import Verif.Proofs.CompSimS
import Verif.Proofs.Scan
/-!
# The compile buffer holds the encoding of the structured code
-/
namespace Snek.Lang
open Snek.Vm

variable {W : Nat} {conv : BitVec 32 → BitVec 8}

/-- The buffer holds these instructions, and the previous-instruction offset is that of the last one. -/
structure Rep (W : Nat) (b : Buf) (l : List Item) : Prop where
  bytes : b.bytes = enc W l
  prev : l ≠ [] → b.prev = isz W l.dropLast

theorem Rep.cur {b : Buf} {l} (h : Rep W b l) : b.cur = isz W l := by
  simp [Buf.cur, h.bytes]

theorem Rep.add {b : Buf} {l} (h : Rep W b l) (i : Ins) : Rep W (b.add W i) (l ++ [(i, false)]) where
  bytes := by simp [Buf.add, h.bytes, enc]
  prev _ := by simp [Buf.add, h.bytes]

theorem Rep.prev_add {b : Buf} {l} (h : Rep W b l) (i : Ins) : (b.add W i).prev = isz W l := by simp [Buf.add, h.bytes]

theorem Rep.del {b : Buf} {l} (h : Rep W b l) (i : Ins) : Rep W (b.add W i).deletePrev l where
  bytes := by simp [Buf.add, Buf.deletePrev, h.bytes]
  prev := by simpa [Buf.add, Buf.deletePrev] using h.prev

theorem isz_eq_sum (l : List Item) : isz W l = (l.map (fun it => it.1.size W)).sum := by
  induction l with
  | nil => rfl
  | cons x l ih => simp [ih]

theorem Rep.resize {b : Buf} {l l' : List Item} {bs} (h : Rep W b l) (hb : bs = enc W l')
    (hs : l.map (fun it => it.1.size W) = l'.map (fun it => it.1.size W)) : Rep W { b with bytes := bs } l' where
  bytes := hb
  prev hne := by
    have : l ≠ [] := by
      intro h0; subst h0; simp at hs; exact hne hs
    rw [show ({ b with bytes := bs } : Buf).prev = b.prev from rfl, h.prev this, isz_eq_sum, isz_eq_sum, List.map_dropLast,
      List.map_dropLast, hs]

theorem ofNat_push (n : Nat) (p : Bool) (h : n < 128) : UInt8.ofNat (n + if p then 128 else 0) ||| 0x80 = UInt8.ofNat (n + 128) := by
  have h1 : ∀ n : Fin 128, UInt8.ofNat n.val ||| 0x80 = UInt8.ofNat (n.val + 128) := by decide
  have h2 : ∀ n : Fin 128, UInt8.ofNat (n.val + 128) ||| 0x80 = UInt8.ofNat (n.val + 128) := by decide
  cases p
  · simpa using h1 ⟨n, h⟩
  · simpa using h2 ⟨n, h⟩

theorem set_head (pre : List UInt8) (i : Ins) (p : Bool) (post : List UInt8) :
    (pre ++ (encode W i p ++ post)).set pre.length
      ((pre ++ (encode W i p ++ post))[pre.length]?.getD 0 ||| 0x80) = pre ++ (encode W i true ++ post) := by
  have hg : (pre ++ (encode W i p ++ post))[pre.length]?.getD 0 = UInt8.ofNat (i.opcode + if p then 128 else 0) := by
    simp [encode]
  rw [hg, ofNat_push _ _ i.opcode_lt]
  simp [encode]

theorem Rep.push {b : Buf} {l i p} (h : Rep W b (l ++ [(i, p)])) : Rep W b.pushPrev (l ++ [(i, true)]) := by
  refine Rep.resize h ?_ (by simp)
  rw [h.prev (by simp), h.bytes]
  have := set_head (W := W) (enc W l) i p []
  simp only [enc_length] at this
  simpa [enc] using this

/-- `add_op_lvalue` on an element: the index instruction is replaced by a push. -/
theorem Rep.pushDel {b : Buf} {l i p} (h : Rep W b (l ++ [(i, p)])) (j : Ins) :
    Rep W (((b.add W j).setPush (b.add W j).prevPrev).deletePrev) (l ++ [(i, true)]) := by
  have hp := h.prev (by simp)
  simp only [List.dropLast_concat] at hp
  refine ⟨?_, fun _ => ?_⟩
  · simp only [Buf.add, Buf.setPush, Buf.deletePrev, hp, h.bytes]
    have := set_head (W := W) (enc W l) i p (encode W j false)
    simp only [enc_length] at this
    have e : enc W (l ++ [(i, p)]) ++ encode W j false = enc W l ++ (encode W i p ++ encode W j false) := by simp [enc]
    rw [e, this]
    have e2 : enc W l ++ (encode W i true ++ encode W j false) = enc W (l ++ [(i, true)]) ++ encode W j false := by simp [enc]
    have l2 : (enc W (l ++ [(i, p)])).length = (enc W (l ++ [(i, true)])).length := by simp
    rw [e2, l2, List.take_left]
  · simp only [Buf.add, Buf.setPush, Buf.deletePrev, hp, List.dropLast_concat]

theorem Rep.patchBr {b : Buf} {l1 l2 i i' p x t r off} (h : Rep W b (l1 ++ (i, p) :: l2))
    (hi : i.operands W = leBytes W x ++ r) (hi' : i'.operands W = leBytes W t ++ r) (ho : i.opcode = i'.opcode)
    (hoff : off = isz W l1) : Rep W (b.patchBranch W off t) (l1 ++ (i', p) :: l2) := by
  refine Rep.resize h ?_ (by simp [Ins.size, hi, hi', leBytes_length])
  rw [h.bytes]; exact patchBranch_item hi hi' ho l1 l2 p off hoff

theorem Rep.fwd (hW : 2 ≤ W) {b : Buf} {l1 l2 l3 : List Item} (h : Rep W b (l1 ++ (l2 ++ l3))) (hs : ∀ it ∈ l2, ScanOk it.1)
    (kind t : Nat) {o1 o2} (h1 : o1 = isz W l1) (h2 : o2 = isz W l1 + isz W l2) :
    Rep W (b.patchFwd W o1 o2 kind t) (l1 ++ (l2.map (patchItem kind t) ++ l3)) := by
  subst h1 h2
  refine Rep.resize h ?_ (by simp [patchItem_size])
  rw [h.bytes]; exact patchForward_items hW kind t l2 hs l1 l3

/-! ## Shape of expression code -/

theorem compE_last (base : Nat) (e : Expr) : ∃ init i, ∀ p, compE W conv p base e = init ++ [(i, p)] := by
  cases e with
  | num u => exact ⟨[], numIns conv u, fun p => by simp [compE]⟩
  | str o => exact ⟨[], .string o, fun p => by simp [compE]⟩
  | name x => exact ⟨[], .id x, fun p => by simp [compE]⟩
  | unary op e => simp only [compE]; exact ⟨_, _, fun p => rfl⟩
  | binary op a b => simp only [compE]; exact ⟨_, _, fun p => rfl⟩
  | and a b => simp only [compE]; exact ⟨_, _, fun p => by rw [← List.cons_append, ← List.append_assoc]⟩
  | or a b => simp only [compE]; exact ⟨_, _, fun p => by rw [← List.cons_append, ← List.append_assoc]⟩
  | cmp a r b more => simp only [compE]; exact ⟨_, _, fun p => by rw [← List.append_assoc, ← List.append_assoc]⟩
  | index a i => simp only [compE]; exact ⟨_, _, fun p => rfl⟩
  | slice a s e t =>
    simp only [compE]
    exact ⟨_, _, fun p => by rw [← List.append_assoc, ← List.append_assoc, ← List.append_assoc]⟩
  | call g args named => simp only [compE]; exact ⟨_, _, fun p => by rw [← List.append_assoc, ← List.append_assoc]⟩
  | build k es => simp only [compE]; exact ⟨_, _, fun p => rfl⟩

theorem compE_pos (p : Bool) (base : Nat) (e : Expr) : 0 < isz W (compE W conv p base e) := by
  obtain ⟨init, i, h⟩ := compE_last (W := W) (conv := conv) base e
  rw [h]; have := i.size_pos W; simp; omega

theorem compE_isz (base : Nat) (e : Expr) : isz W (compE W conv false base e) = isz W (compE W conv true base e) := by
  obtain ⟨init, i, h⟩ := compE_last (W := W) (conv := conv) base e
  rw [h, h]; simp

/-! ## Expression code can be scanned -/

theorem numIns_scan (u) : ScanOk (numIns conv u) := by
  rcases numIns_cases conv u with ⟨b, h⟩ | h <;> rw [h] <;> trivial

mutual
theorem compE_scan (p : Bool) (base : Nat) (e : Expr) (wf : WfE W true e) : ∀ it ∈ compE W conv p base e, ScanOk it.1 := by
  cases e with
  | num u => simpa [compE] using numIns_scan u
  | str o => simp [compE, ScanOk]
  | name x => simp [compE, ScanOk]
  | unary op e =>
    have h1 := compE_scan (p := false) base e wf
    simp only [compE, List.forall_mem_append, List.forall_mem_singleton]
    exact ⟨h1, trivial⟩
  | binary op a b =>
    have h1 := fun base => compE_scan (p := true) base a wf.1
    have h2 := fun base => compE_scan (p := false) base b wf.2
    simp only [compE, List.forall_mem_append, List.forall_mem_singleton]
    exact ⟨⟨h1 _, h2 _⟩, trivial⟩
  | and a b =>
    have h1 := fun base => compE_scan (p := false) base a wf.1
    have h2 := fun base => compE_scan (p := false) base b wf.2
    simp only [compE, List.forall_mem_append, List.forall_mem_singleton, List.forall_mem_cons]
    exact ⟨h1 _, trivial, h2 _, trivial⟩
  | or a b =>
    have h1 := fun base => compE_scan (p := false) base a wf.1
    have h2 := fun base => compE_scan (p := false) base b wf.2
    simp only [compE, List.forall_mem_append, List.forall_mem_singleton, List.forall_mem_cons]
    exact ⟨h1 _, trivial, h2 _, trivial⟩
  | cmp a r b more =>
    have h1 := fun base => compE_scan (p := true) base a wf.1
    have h2 := fun base => compE_scan (p := false) base b wf.2.1
    have h3 := fun t base => compMore_scan (lk := fun c => .chain c t) (by intro c; trivial) base r more wf.2.2
    simp only [compE, List.forall_mem_append, List.forall_mem_singleton]
    exact ⟨h1 _, h2 _, h3 _ _, trivial⟩
  | index a i =>
    have h1 := fun base => compE_scan (p := true) base a wf.1
    have h2 := fun base => compE_scan (p := false) base i wf.2
    simp only [compE, List.forall_mem_append, List.forall_mem_singleton]
    exact ⟨⟨h1 _, h2 _⟩, trivial⟩
  | slice a s e t =>
    have h1 := fun base => compE_scan (p := true) base a wf.1
    have h2 := fun base => compOpt_scan base s wf.2.1
    have h3 := fun base => compOpt_scan base e wf.2.2.1
    have h4 := fun base => compOpt_scan base t wf.2.2.2
    simp only [compE, List.forall_mem_append, List.forall_mem_singleton]
    exact ⟨h1 _, h2 _, h3 _, h4 _, trivial⟩
  | call g args named =>
    have h1 := fun base => compE_scan (p := true) base g wf.1
    have h2 := fun base => compArgs_scan base args wf.2.1
    have h3 := fun base => compNamed_scan base named wf.2.2.1
    simp only [compE, List.forall_mem_append, List.forall_mem_singleton]
    exact ⟨h1 _, h2 _, h3 _, trivial⟩
  | build k es =>
    have h1 := fun base => compArgs_scan base es wf.1
    simp only [compE, List.forall_mem_append, List.forall_mem_singleton]
    refine ⟨h1 _, ?_⟩
    cases k with
    | dict => exact wf.2.2 rfl rfl
    | _ => trivial
theorem compMore_scan {lk : Vm.CmpOp → Ins} (hl : ∀ c, ScanOk (lk c)) (base : Nat) (r : RelOp) (m : Chain) (wf : WfChain W r m) :
    ∀ it ∈ compMore W conv lk base r m, ScanOk it.1 := by
  cases m with
  | nil => simp only [compMore, List.forall_mem_singleton]; trivial
  | cons r' e rest =>
    have h1 := fun base => compE_scan (p := false) base e wf.2.1
    have h2 := fun base => compMore_scan hl base r' rest wf.2.2
    simp only [compMore, List.forall_mem_append, List.forall_mem_cons]
    refine ⟨?_, h1 _, h2 _⟩
    cases r <;> exact hl _
theorem compOpt_scan (base : Nat) (o : OptE) (wf : WfOpt W true o) : ∀ it ∈ compOpt W conv base o, ScanOk it.1 := by
  cases o with
  | none => simp [compOpt]
  | some e => simpa only [compOpt] using compE_scan true base e wf
theorem compArgs_scan (base : Nat) (es : Exprs) (wf : WfArgs W true es) : ∀ it ∈ compArgs W conv base es, ScanOk it.1 := by
  cases es with
  | nil => simp [compArgs]
  | cons e es =>
    have h1 := fun base => compE_scan (p := true) base e wf.1
    have h2 := fun base => compArgs_scan base es wf.2
    simp only [compArgs, List.forall_mem_append]
    exact ⟨h1 _, h2 _⟩
theorem compNamed_scan (base : Nat) (es : Named) (wf : WfNamed W true es) : ∀ it ∈ compNamed W conv base es, ScanOk it.1 := by
  cases es with
  | nil => simp [compNamed]
  | cons x e es =>
    have h1 := fun base => compE_scan (p := true) base e wf.2.2.1
    have h2 := fun base => compNamed_scan base es wf.2.2.2
    simp only [compNamed, List.forall_mem_append, List.forall_mem_cons]
    exact ⟨numIns_scan _, h1 _, h2 _⟩
end

/-! ## Expressions -/

/-- A non-final comparison link before it is resolved. -/
def lkF (o : Vm.CmpOp) : Ins := .forward (fwCmp + (o.num + 6) * 256)

theorem lkF_scan (o) : ScanOk (lkF o) := by cases o <;> simp [lkF, ScanOk, fwCmp, CmpOp.num]

theorem lkF_patch (o t) : patchItem fwCmp t (lkF o, true) = (.chain o t, true) := by
  cases o <;> simp [patchItem, lkF, fwCmp, CmpOp.num, fwdIns, CmpOp.dec]

theorem compMore_patch (t base r) (m : Chain) :
    (compMore W conv lkF base r m).map (patchItem fwCmp t) = compMore W conv (fun c => .chain c t) base r m := by
  cases m with
  | nil => simp [compMore, patchItem]
  | cons r' e rest =>
    have ih := fun base => compMore_patch t base r' rest
    have hs : ∀ o, (lkF o).size W = 1 + W := by intro o; simp [lkF, Ins.size, Ins.operands, leBytes_length]
    have hs' : ∀ o, (Ins.chain o t).size W = 1 + W := by intro o; simp [Ins.size, Ins.operands, leBytes_length]
    cases r <;> simp [compMore, ih, lkF_patch, compE_map (patchItem_fn fwCmp t), hs, hs']

theorem compMore_isz (t base r) (m : Chain) :
    isz W (compMore W conv lkF base r m) = isz W (compMore W conv (fun c => .chain c t) base r m) := by
  rw [← compMore_patch, isz_patch]

/-- Pushing the result of an expression. -/
theorem Rep.pushE {b : Buf} {l base} {e : Expr} (h : Rep W b (l ++ compE W conv false base e)) :
    Rep W b.pushPrev (l ++ compE W conv true base e) := by
  obtain ⟨init, i, hi⟩ := compE_last (W := W) (conv := conv) base e
  rw [hi, ← List.append_assoc] at h ⊢
  exact h.push

/-- The last instruction already has its push flag. -/
theorem Rep.push_idem {b : Buf} {l i} (h : Rep W b (l ++ [(i, true)])) : Rep W b.pushPrev (l ++ [(i, true)]) := h.push

/-- The last instruction pushes. -/
def Pushed (l : List Item) : Prop := ∃ l' i, l = l' ++ [(i, true)]

theorem pushed_compE (l : List Item) (base) (e : Expr) : Pushed (l ++ compE W conv true base e) := by
  obtain ⟨init, i, hi⟩ := compE_last (W := W) (conv := conv) base e
  exact ⟨l ++ init, i, by rw [hi]; simp⟩

theorem Rep.again {b : Buf} {l} (h : Rep W b l) (hp : Pushed l) : Rep W b.pushPrev l := by
  obtain ⟨l', i, rfl⟩ := hp
  exact h.push

mutual
theorem emitE_rep (hW : 2 ≤ W) (e : Expr) {z : Bool} (wf : WfE W z e) {b : Buf} {l} (h : Rep W b l)
    (hb : 0 < isz W l ∨ leftCmp e = false) : Rep W (emitE W conv e b) (l ++ compE W conv false (isz W l) e) := by
  cases e with
  | num u => simpa only [compE, emitE] using h.add _
  | str o => simpa only [compE, emitE] using h.add _
  | name x => simpa only [compE, emitE] using h.add _
  | unary op e =>
    simp only [compE, emitE, ← List.append_assoc]
    exact (emitE_rep hW e wf h hb).add _
  | binary op x y =>
    simp only [compE, emitE]
    have h1 := (emitE_rep hW x wf.1 h hb).pushE
    have h2 := emitE_rep hW y wf.2 h1 (.inl (by have := compE_pos (W := W) (conv := conv) true (isz W l) x; simp; omega))
    have h3 := h2.add (.arith op)
    simpa using h3
  | index x y =>
    simp only [compE, emitE]
    have h1 := (emitE_rep hW x wf.1 h hb).pushE
    have h2 := emitE_rep hW y wf.2 h1 (.inl (by have := compE_pos (W := W) (conv := conv) true (isz W l) x; simp; omega))
    have h3 := h2.add .array
    simpa using h3
  | and x y =>
    simp only [compE, emitE]
    have h1 := (emitE_rep hW x wf.1 h hb).add (.branchFalse 0)
    have h2 := emitE_rep hW y wf.2 h1 (.inl (by have := compE_pos (W := W) (conv := conv) false (isz W l) x; simp; omega))
    rw [Rep.prev_add (emitE_rep hW x wf.1 h hb), h2.cur]
    simp only [List.append_assoc, List.singleton_append] at h2
    rw [← List.append_assoc] at h2
    have h3 := (h2.patchBr (i' := .branchFalse (isz W (l ++ compE W conv false (isz W l) x ++ [(Ins.branchFalse 0, false)] ++
      compE W conv false (isz W (l ++ compE W conv false (isz W l) x ++ [(Ins.branchFalse 0, false)])) y)))
      (x := 0) (r := []) (off := isz W (l ++ compE W conv false (isz W l) x)) (by simp [Ins.operands]) (by simp [Ins.operands]; rfl) rfl rfl).add .nop
    simpa [Nat.add_assoc, sz_branchFalse] using h3
  | or x y =>
    simp only [compE, emitE]
    have h1 := (emitE_rep hW x wf.1 h hb).add (.branchTrue 0)
    have h2 := emitE_rep hW y wf.2 h1 (.inl (by have := compE_pos (W := W) (conv := conv) false (isz W l) x; simp; omega))
    rw [Rep.prev_add (emitE_rep hW x wf.1 h hb), h2.cur]
    simp only [List.append_assoc, List.singleton_append] at h2
    rw [← List.append_assoc] at h2
    have h3 := (h2.patchBr (i' := .branchTrue (isz W (l ++ compE W conv false (isz W l) x ++ [(Ins.branchTrue 0, false)] ++
      compE W conv false (isz W (l ++ compE W conv false (isz W l) x ++ [(Ins.branchTrue 0, false)])) y)))
      (x := 0) (r := []) (off := isz W (l ++ compE W conv false (isz W l) x)) (by simp [Ins.operands]) (by simp [Ins.operands]; rfl) rfl rfl).add .nop
    simpa [Nat.add_assoc, sz_branchTrue] using h3
  | cmp x r y more =>
    have hl : 0 < isz W l := by simpa [leftCmp] using hb
    have h1 := emitE_rep hW x wf.1 h (.inl hl)
    have h2 := emitE_rep hW y wf.2.1 h1.pushE (.inl (by simp; omega))
    obtain ⟨init, i, hi⟩ := compE_last (W := W) (conv := conv) (isz W l) x
    have hoff : (emitE W conv x b).prev = isz W (l ++ init) := by
      rw [h1.prev (by rw [hi]; simp), hi, ← List.append_assoc]; simp
    obtain ⟨B, hB, he⟩ := emitChain_rep hW more wf.2.2 h2 (by simp; omega)
      (off := (emitE W conv x b).prev) (by rw [hoff]; simp; omega)
    have hca := hi true
    have hsx := compE_scan (W := W) (conv := conv) true (isz W l) x wf.1
    have hmx := fun t => compE_map (conv := conv) (patchItem_fn (W := W) fwCmp t) true (isz W l) x
    simp only [emitE, compE]
    rw [he, hB.cur, hoff]
    clear he h1 h2 hi hoff
    simp only [isz_append] at hB ⊢
    generalize compE W conv true (isz W l) x = ca at *
    have hsy := compE_scan (W := W) (conv := conv) false (isz W l + isz W ca) y wf.2.1
    have hmy := fun t => compE_map (conv := conv) (patchItem_fn (W := W) fwCmp t) false (isz W l + isz W ca) y
    generalize compE W conv false (isz W l + isz W ca) y = cc at *
    rw [compMore_isz 0]
    generalize ht : isz W l + isz W ca + isz W cc +
      isz W (compMore W conv (fun c => .chain c 0) (isz W l + isz W ca + isz W cc) r more) = t at *
    have hsm := compMore_scan (W := W) (conv := conv) lkF_scan (isz W l + isz W ca + isz W cc) r more wf.2.2
    have hmm := compMore_patch (W := W) (conv := conv) t (isz W l + isz W ca + isz W cc) r more
    have hzm := compMore_isz (W := W) (conv := conv) 0 (isz W l + isz W ca + isz W cc) r more
    generalize compMore W conv lkF (isz W l + isz W ca + isz W cc) r more = cm at *
    have hmx := hmx t
    have hmy := hmy t
    subst hca
    rw [List.map_append] at hmx
    have hlast := (List.append_inj' hmx (by simp)).2
    rw [List.forall_mem_append] at hsx
    have e1 : l ++ (init ++ [(i, true)]) ++ cc ++ cm = (l ++ init) ++ ([(i, true)] ++ (cc ++ cm) ++ []) := by simp
    rw [e1] at hB
    have hB' := (hB.fwd hW (by
      simp only [List.forall_mem_append]
      exact ⟨hsx.2, hsy, hsm⟩) fwCmp t (o1 := isz W l + isz W init) (o2 := t) (by simp)
      (by rw [← ht, ← hzm]; simp; omega)).add .nop
    rw [List.map_append, List.map_append, hlast, hmy, hmm] at hB'
    simpa using hB'
  | slice x s e t =>
    simp only [compE, emitE]
    have hp := compE_pos (W := W) (conv := conv) true (isz W l) x
    have h1 := (emitE_rep hW x wf.1 h hb).pushE
    have h2 := emitOpt1_rep hW s wf.2.1 h1 (by simp; omega) (pushed_compE _ _ _)
    have h3 := emitOpt2_rep hW e wf.2.2.1 h2.1 (by simp; omega) h2.2
    have h4 := emitOpt2_rep hW t wf.2.2.2 h3.1 (by simp; omega) h3.2
    have h5 := h4.1.add (.slice (sliceFlags s e t))
    simpa [Nat.add_assoc] using h5
  | call g args named =>
    simp only [compE, emitE]
    have hp := compE_pos (W := W) (conv := conv) true (isz W l) g
    have h1 := (emitE_rep hW g wf.1 h hb).pushE
    have h2 := emitArgs_rep hW args wf.2.1 h1 (.inl (by simp; omega))
    have h3 := emitNamed_rep hW named wf.2.2.1 h2
    have h5 := h3.add (.call (args.length + 256 * named.length))
    simpa [Nat.add_assoc] using h5
  | build k es =>
    simp only [compE, emitE]
    have h1 := (emitArgs_rep hW es wf.1 h hb).add (.mk k es.length)
    simpa using h1
theorem emitChain_rep (hW : 2 ≤ W) (more : Chain) {r} (wf : WfChain W r more) {b0 : Buf} {L0} (h : Rep W b0 L0) (hpos : 0 < isz W L0)
    {off : Nat} (hoff : off ≠ 0) : ∃ B, Rep W B (L0 ++ compMore W conv lkF (isz W L0) r more) ∧
      emitChain W conv off more (b0.add W (relIns r)) = (B.patchFwd W off B.cur fwCmp B.cur).add W .nop := by
  cases more with
  | nil => exact ⟨_, by simpa only [compMore, relIns] using h.add (relIns r), by simp only [emitChain]; rw [if_pos hoff]; rfl⟩
  | cons r' e rest =>
    obtain ⟨⟨o, rfl⟩, we, wr⟩ := wf
    have hcode : (((b0.add W (relIns (.cmp o))).bytes[(b0.add W (relIns (.cmp o))).prev]?.getD 0).toNat) = o.num := by
      have := encode_head W (.rel (.cmp o)) false b0.bytes []
      simpa [Buf.add, relIns, Ins.opcode, RelOp.num] using this
    have h1 := ((h.del (relIns (.cmp o))).add (lkF o)).push
    have h2 := emitE_rep hW e we h1 (.inl (by simp; omega))
    obtain ⟨B, hB, he⟩ := emitChain_rep hW rest wr h2 (by simp; omega) hoff
    refine ⟨B, ?_, ?_⟩
    · simpa [compMore, Nat.add_assoc] using hB
    · simp only [emitChain]
      rw [if_pos hoff, hcode]
      exact he
theorem emitOpt1_rep (hW : 2 ≤ W) (o : OptE) {z : Bool} (wf : WfOpt W z o) {b : Buf} {l} (h : Rep W b l) (hb : 0 < isz W l)
    (hp : Pushed l) : Rep W (emitOpt1 W conv o b).pushPrev (l ++ compOpt W conv (isz W l) o) ∧
      Pushed (l ++ compOpt W conv (isz W l) o) := by
  cases o with
  | none => simp only [emitOpt1, compOpt, List.append_nil]; exact ⟨h.again hp, hp⟩
  | some e => simp only [emitOpt1, compOpt]; exact ⟨(emitE_rep hW e wf h (.inl hb)).pushE, pushed_compE _ _ _⟩
theorem emitOpt2_rep (hW : 2 ≤ W) (o : OptE) {z : Bool} (wf : WfOpt W z o) {b : Buf} {l} (h : Rep W b.pushPrev l) (hb : 0 < isz W l)
    (hp : Pushed l) : Rep W (emitOpt2 W conv o b).pushPrev (l ++ compOpt W conv (isz W l) o) ∧
      Pushed (l ++ compOpt W conv (isz W l) o) := by
  cases o with
  | none => simp only [emitOpt2, compOpt, List.append_nil]; exact ⟨h, hp⟩
  | some e => simp only [emitOpt2, compOpt]; exact ⟨(emitE_rep hW e wf h (.inl hb)).pushE, pushed_compE _ _ _⟩
theorem emitArgs_rep (hW : 2 ≤ W) (es : Exprs) {z : Bool} (wf : WfArgs W z es) {b : Buf} {l} (h : Rep W b l)
    (hb : 0 < isz W l ∨ leftArgs es = false) : Rep W (emitArgs W conv es b) (l ++ compArgs W conv (isz W l) es) := by
  cases es with
  | nil => simpa only [compArgs, emitArgs, List.append_nil] using h
  | cons e es =>
    simp only [compArgs, emitArgs]
    have h1 := (emitE_rep hW e wf.1 h hb).pushE
    have h2 := emitArgs_rep hW es wf.2 h1 (.inl (by have := compE_pos (W := W) (conv := conv) true (isz W l) e; simp; omega))
    simpa using h2
theorem emitNamed_rep (hW : 2 ≤ W) (es : Named) {z : Bool} (wf : WfNamed W z es) {b : Buf} {l} (h : Rep W b l) :
    Rep W (emitNamed W conv es b) (l ++ compNamed W conv (isz W l) es) := by
  cases es with
  | nil => simpa only [compNamed, emitNamed, List.append_nil] using h
  | cons x e es =>
    simp only [compNamed, emitNamed]
    have h0 := ((h.del (.id x)).add (numIns conv (intToF x))).push
    have hp := (numIns conv (intToF x)).size_pos W
    have h1 := (emitE_rep hW e wf.2.2.1 h0 (.inl (by simp; omega))).pushE
    have h2 := emitNamed_rep hW es wf.2.2.2 h1
    simpa [Nat.add_assoc] using h2
end

/-! ## Statements -/

theorem patched_scan (k t : Nat) {l : List Item} (h : ∀ it ∈ l, ScanOk it.1) : ∀ it ∈ l.map (patchItem k t), ScanOk it.1 := by
  intro it hit
  obtain ⟨x, hx, rfl⟩ := List.mem_map.1 hit
  unfold patchItem
  split
  · split
    · simp only [fwdIns]; split <;> trivial
    · exact h x hx
  · exact h x hx

mutual
theorem compS_scan (fd base : Nat) (s : Stmt) (wf : WfS W true s) : ∀ it ∈ compS W conv fd base s, ScanOk it.1 := by
  cases s with
  | skip => simp [compS]
  | line n => simp [compS, ScanOk]
  | seq a b =>
    have h1 := fun base => compS_scan fd base a wf.1
    have h2 := fun base => compS_scan fd base b wf.2
    simp only [compS, List.forall_mem_append]
    exact ⟨h1 _, h2 _⟩
  | expr e => simpa only [compS] using compE_scan false base e wf
  | assign op x e =>
    simp only [compS, List.forall_mem_append, List.forall_mem_singleton]
    exact ⟨compE_scan _ _ e wf.2.2, trivial⟩
  | assignIdx op a i e =>
    simp only [compS, List.forall_mem_append, List.forall_mem_singleton]
    exact ⟨compE_scan _ _ a wf.1, compE_scan _ _ i wf.2.1, compE_scan _ _ e wf.2.2, trivial⟩
  | ret e =>
    cases e with
    | none => simp [compS, ScanOk]
    | some e =>
      simp only [compS, List.forall_mem_append, List.forall_mem_singleton]
      exact ⟨compE_scan _ _ e wf, trivial⟩
  | brk => simp [compS, ScanOk, fwBreak]
  | cont => simp [compS, ScanOk, fwContinue]
  | global x => simp [compS, ScanOk]
  | del x => simp [compS, ScanOk]
  | delIdx a i =>
    simp only [compS, List.forall_mem_append, List.forall_mem_singleton]
    exact ⟨compE_scan _ _ a wf.1, compE_scan _ _ i wf.2, trivial⟩
  | assert e =>
    simp only [compS, List.forall_mem_append, List.forall_mem_singleton]
    exact ⟨compE_scan _ _ e wf, trivial⟩
  | ifs c t els =>
    have h1 := fun base => compS_scan fd base t wf.2.1
    have h2 := fun base => compElse_scan fd base els wf.2.2
    simp only [compS, List.forall_mem_append, List.forall_mem_cons]
    exact ⟨compE_scan _ _ c wf.1, trivial, patched_scan _ _ (by rw [List.forall_mem_append]; exact ⟨h1 _, h2 _⟩)⟩
  | whil c body els =>
    have h1 := fun base => compS_scan fd base body wf.2.1
    have h2 := fun base => compS_scan fd base els wf.2.2
    simp only [compS, List.forall_mem_append, List.forall_mem_cons]
    exact ⟨compE_scan _ _ c wf.1, trivial, patched_scan _ _ (patched_scan _ _ (h1 _)), trivial, h2 _⟩
  | forRange x args body els =>
    have h1 := fun base => compS_scan (fd + 1) base body wf.2.2.2.2.1
    have h2 := fun base => compS_scan fd base els wf.2.2.2.2.2
    simp only [compS, List.forall_mem_append, List.forall_mem_cons]
    exact ⟨compArgs_scan _ args wf.2.2.2.1, trivial, trivial, patched_scan _ _ (patched_scan _ _ (h1 _)), trivial, h2 _⟩
  | forIn x e body els =>
    have h1 := fun base => compS_scan (fd + 1) base body wf.2.2.2.1
    have h2 := fun base => compS_scan fd base els wf.2.2.2.2
    simp only [compS, List.forall_mem_append, List.forall_mem_cons]
    exact ⟨compE_scan _ _ e wf.2.2.1, trivial, numIns_scan _, trivial, trivial, patched_scan _ _ (patched_scan _ _ (h1 _)),
      trivial, h2 _⟩
theorem compElse_scan (fd base : Nat) (s : Else) (wf : WfElse W s) : ∀ it ∈ compElse W conv fd base s, ScanOk it.1 := by
  cases s with
  | none => simp [compElse]
  | els s =>
    have h1 := fun base => compS_scan fd base s wf
    simp only [compElse, List.forall_mem_cons]
    exact ⟨by simp [ScanOk, fwIf], h1 _⟩
  | elif l c t rest =>
    have h1 := fun base => compS_scan fd base t wf.2.2.1
    have h2 := fun base => compElse_scan fd base rest wf.2.2.2
    simp only [compElse, List.forall_mem_append, List.forall_mem_cons]
    exact ⟨trivial, by simp [ScanOk, fwIf], compE_scan _ _ c wf.2.1, trivial, h1 _, h2 _⟩
end

theorem startsLine_pos {fd base : Nat} (s : Stmt) (h : startsLine s = true) : 0 < isz W (compS W conv fd base s) := by
  cases s with
  | line n => simp [compS, Ins.size]; omega
  | seq a b =>
    have := startsLine_pos (fd := fd) (base := base) a h
    simp [compS]; omega
  | _ => simp [startsLine] at h

/-- The loop patches. -/
theorem Rep.loop (hW : 2 ≤ W) {b : Buf} {l cb ce : List Item} {i i' : Ins} {x t : Nat} {r : List UInt8} {top whileOff endOff : Nat}
    (h : Rep W b (l ++ (i, false) :: (cb ++ (.branch 0, false) :: ce)))
    (hi : i.operands W = leBytes W x ++ r) (hi' : i'.operands W = leBytes W t ++ r) (ho : i.opcode = i'.opcode)
    (hsc : ScanOk i') (hnf : ∀ k, i' ≠ .forward k) (hs : ∀ it ∈ cb, ScanOk it.1)
    (h1 : whileOff = isz W l) (h2 : endOff = isz W l + i.size W + isz W cb) {E : Nat} (hE : E = isz W l + i.size W + isz W cb + (1 + W) + isz W ce) :
    Rep W (patchLoop W top whileOff endOff t b)
      (l ++ (i', false) :: ((cb.map (patchItem fwContinue top)).map (patchItem fwBreak E) ++ (.branch top, false) :: ce)) := by
  unfold patchLoop
  have hsz : i'.size W = i.size W := by simp [Ins.size, hi, hi', leBytes_length]
  have a1 := h.patchBr (t := t) hi hi' ho h1
  have e1 : l ++ (i', false) :: (cb ++ (.branch 0, false) :: ce) = (l ++ (i', false) :: cb) ++ (.branch 0, false) :: ce := by simp
  rw [e1] at a1
  have a2 := a1.patchBr (i' := .branch top) (x := 0) (t := top) (r := []) (off := endOff) (by simp [Ins.operands])
    (by simp [Ins.operands]) rfl (by rw [h2]; simp [hsz]; omega)
  have e2 : (l ++ (i', false) :: cb) ++ (.branch top, false) :: ce = l ++ (((i', false) :: cb) ++ (.branch top, false) :: ce) := by simp
  rw [e2] at a2
  have a3 := a2.fwd hW (by rw [List.forall_mem_cons]; exact ⟨hsc, hs⟩) fwContinue top h1 (o2 := endOff) (by rw [h2]; simp [hsz]; omega)
  have a4 := a3.fwd hW (patched_scan _ _ (by rw [List.forall_mem_cons]; exact ⟨hsc, hs⟩)) fwBreak E h1 (o2 := endOff)
    (by rw [h2]; simp [hsz, patchItem_size]; omega)
  have k1 : ∀ k t, patchItem k t (i', false) = (i', false) := fun k t => (patchItem_fn (W := W) k t).keep _ hnf
  have hcur := a3.cur
  simp only [List.map_cons, k1] at a4 hcur
  have hE' : Buf.cur (Buf.patchFwd W whileOff endOff fwContinue top (Buf.patchBranch W endOff top (Buf.patchBranch W whileOff t b))) = E := by
    rw [hcur, hE]; simp [hsz, sz_branch]; omega
  simp only [hE']
  simpa using a4

mutual
theorem emitS_rep (hW : 2 ≤ W) (fd : Nat) (s : Stmt) {z : Bool} (wf : WfS W z s) {b : Buf} {l} (h : Rep W b l)
    (hb : 0 < isz W l ∨ startsLine s = true) : Rep W (emitS W conv fd s b) (l ++ compS W conv fd (isz W l) s) := by
  cases s with
  | skip => simpa only [compS, emitS, List.append_nil] using h
  | line n => simpa only [compS, emitS] using h.add _
  | seq x y =>
    simp only [compS, emitS]
    have h1 := emitS_rep hW fd x wf.1 h (by simpa [startsLine] using hb)
    have hp : 0 < isz W (l ++ compS W conv fd (isz W l) x) := by
      rcases hb with hb | hb
      · simp; omega
      · have := startsLine_pos (W := W) (conv := conv) (fd := fd) (base := isz W l) x (by simpa [startsLine] using hb)
        simp; omega
    have h2 := emitS_rep hW fd y wf.2 h1 (.inl hp)
    simpa using h2
  | expr e =>
    have hl : 0 < isz W l := by simpa [startsLine] using hb
    simp only [compS, emitS]; exact emitE_rep hW e wf h (.inl hl)
  | assign op x e =>
    have hl : 0 < isz W l := by simpa [startsLine] using hb
    simp only [compS, emitS, emitE]
    have := (emitE_rep (conv := conv) hW e wf.2.2 (h.del (.id x)) (.inl hl)).add (.assign op x)
    simpa using this
  | assignIdx op a i e =>
    have hl : 0 < isz W l := by simpa [startsLine] using hb
    simp only [compS, emitS, emitE]
    have h1 := (emitE_rep (conv := conv) hW a wf.1 h (.inl hl)).pushE
    have h2 := emitE_rep (conv := conv) hW i wf.2.1 h1 (.inl (by simp; omega))
    obtain ⟨init, j, hj⟩ := compE_last (W := W) (conv := conv) (isz W (l ++ compE W conv true (isz W l) a)) i
    rw [hj, ← List.append_assoc] at h2
    have h3 := h2.pushDel .array
    rw [List.append_assoc, ← hj] at h3
    have h4 := (emitE_rep (conv := conv) hW e wf.2.2 h3 (.inl (by simp; omega))).add (.assign op 0)
    simpa [Nat.add_assoc] using h4
  | ret e =>
    have hl : 0 < isz W l := by simpa [startsLine] using hb
    cases e with
    | none => simpa [compS, emitS] using (h.add .null).add .ret
    | some e =>
      simp only [compS, emitS]
      simpa using (emitE_rep (conv := conv) hW e wf h (.inl hl)).add .ret
  | brk => simpa only [compS, emitS, Buf.addForward, Buf.addForwardOp] using h.add _
  | cont => simpa only [compS, emitS, Buf.addForward, Buf.addForwardOp] using h.add _
  | global x => simpa only [compS, emitS] using h.add _
  | del x => simpa only [compS, emitS, emitE] using (h.del (.id x)).add _
  | delIdx a i =>
    have hl : 0 < isz W l := by simpa [startsLine] using hb
    simp only [compS, emitS, emitE]
    have h1 := (emitE_rep (conv := conv) hW a wf.1 h (.inl hl)).pushE
    have h2 := emitE_rep (conv := conv) hW i wf.2 h1 (.inl (by simp; omega))
    have h3 := (h2.del .array).add (.del 0)
    simpa using h3
  | assert e =>
    have hl : 0 < isz W l := by simpa [startsLine] using hb
    simp only [compS, emitS]
    simpa using (emitE_rep (conv := conv) hW e wf h (.inl hl)).add .assert
  | ifs c t els =>
    have hl : 0 < isz W l := by simpa [startsLine] using hb
    have h1 := emitE_rep (conv := conv) hW c wf.1 h (.inl hl)
    have hpv := h1.prev_add (.branchFalse 0)
    have h2 := emitS_rep hW fd t wf.2.1 (h1.add (.branchFalse 0)) (.inl (by simp; omega))
    obtain ⟨ho, h3⟩ := emitElse_rep hW fd els wf.2.2 h2 (by simp; omega)
    simp only [compS, emitS]
    rw [hpv]
    have hs1 := fun base => compS_scan (W := W) (conv := conv) fd base t wf.2.1
    have hs2 := fun base => compElse_scan (W := W) (conv := conv) fd base els wf.2.2
    simp only [ho]
    generalize emitElse W conv fd els _ = EB at *
    simp only [isz_append, isz_cons, isz_nil, sz_branchFalse, Nat.add_zero] at h3 ho ⊢
    generalize compE W conv false (isz W l) c = cc at *
    generalize hb1 : isz W l + isz W cc + (1 + W) = b1 at *
    have hs1 := hs1 b1
    generalize compS W conv fd b1 t = ct at *
    have hs2 := hs2 (b1 + isz W ct)
    generalize compElse W conv fd (b1 + isz W ct) els = ce at *
    have e1 : l ++ cc ++ [(Ins.branchFalse 0, false)] ++ ct ++ ce = (l ++ cc) ++ (.branchFalse 0, false) :: (ct ++ ce) := by simp
    rw [e1] at h3
    have h4 := h3.patchBr (i' := .branchFalse (elseOff W (b1 + isz W ct) els)) (x := 0) (t := elseOff W (b1 + isz W ct) els) (r := [])
      (off := isz W l + isz W cc) (by simp [Ins.operands]) (by simp [Ins.operands]) rfl (by simp)
    have hcur := h4.cur
    have e2 : (l ++ cc) ++ (.branchFalse (elseOff W (b1 + isz W ct) els), false) :: (ct ++ ce) =
      (l ++ cc) ++ (((.branchFalse (elseOff W (b1 + isz W ct) els), false) :: (ct ++ ce)) ++ []) := by simp
    rw [e2] at h4
    have hE : Buf.cur (Buf.patchBranch W (isz W l + isz W cc) (elseOff W (b1 + isz W ct) els) EB.2) = b1 + isz W ct + isz W ce := by
      rw [hcur, ← hb1]; simp [sz_branchFalse]; omega
    have h5 := h4.fwd hW (by
      rw [List.forall_mem_cons, List.forall_mem_append]
      exact ⟨trivial, hs1, hs2⟩) fwIf (b1 + isz W ct + isz W ce) (o1 := isz W l + isz W cc) (by simp) (o2 := b1 + isz W ct + isz W ce)
      (by rw [← hb1]; simp [sz_branchFalse]; omega)
    rw [hE]
    simpa [patchItem] using h5
  | whil c body els =>
    have hl : 0 < isz W l := by simpa [startsLine] using hb
    have h1 := emitE_rep (conv := conv) hW c wf.1 h (.inl hl)
    have hpv := h1.prev_add (.branchFalse 0)
    have h2 := emitS_rep hW fd body wf.2.1 (h1.add (.branchFalse 0)) (.inl (by simp; omega))
    have hpe := h2.prev_add (.branch 0)
    have h2c := (h2.add (.branch 0)).cur
    have h3 := emitS_rep hW fd els wf.2.2 (h2.add (.branch 0)) (.inl (by simp; omega))
    simp only [compS, emitS]
    rw [hpv, h.cur, hpe, h2c]
    have hs1 := fun base => compS_scan (W := W) (conv := conv) fd base body wf.2.1
    simp only [isz_append, isz_cons, isz_nil, sz_branchFalse, sz_branch, Nat.add_zero] at h3 ⊢
    generalize emitS W conv fd els _ = EB at *
    generalize compE W conv false (isz W l) c = cc at *
    generalize hb1 : isz W l + isz W cc + (1 + W) = b1 at *
    have hs1 := hs1 b1
    generalize compS W conv fd b1 body = cb at *
    generalize hb2 : b1 + isz W cb + (1 + W) = b2 at *
    generalize compS W conv fd b2 els = ce at *
    have e1 : l ++ cc ++ [(Ins.branchFalse 0, false)] ++ cb ++ [(Ins.branch 0, false)] ++ ce =
      (l ++ cc) ++ (.branchFalse 0, false) :: (cb ++ (.branch 0, false) :: ce) := by simp
    rw [e1] at h3
    have h4 := h3.loop (i' := .branchFalse b2) (x := 0) (t := b2) (r := []) (top := isz W l) (whileOff := isz W l + isz W cc)
      (endOff := b1 + isz W cb) (E := b2 + isz W ce) hW (by simp [Ins.operands]) (by simp [Ins.operands]) rfl trivial (by simp) hs1 (by simp)
      (by rw [← hb1]; simp [sz_branchFalse]) (by rw [← hb2, ← hb1]; simp [sz_branchFalse])
    simpa using h4
  | forRange x args body els =>
    have hl : 0 < isz W l := by simpa [startsLine] using hb
    have h0 := (emitArgs_rep (conv := conv) hW args wf.2.2.2.1 h (.inl hl)).add (.rangeStart args.length (UInt8.ofNat fd) x)
    have hpv := h0.prev_add (.rangeStep 0 (UInt8.ofNat fd) x)
    have h2 := emitS_rep hW (fd + 1) body wf.2.2.2.2.1 (h0.add (.rangeStep 0 (UInt8.ofNat fd) x)) (.inl (by simp; omega))
    have hpe := h2.prev_add (.branch 0)
    have h2c := (h2.add (.branch 0)).cur
    have h3 := emitS_rep hW fd els wf.2.2.2.2.2 (h2.add (.branch 0)) (.inl (by simp; omega))
    simp only [compS, emitS]
    rw [hpv, hpe, h2c]
    have hs1 := fun base => compS_scan (W := W) (conv := conv) (fd + 1) base body wf.2.2.2.2.1
    simp only [isz_append, isz_cons, isz_nil, sz_rangeStart, sz_rangeStep, sz_branch, Nat.add_zero] at h3 ⊢
    generalize emitS W conv fd els _ = EB at *
    generalize compArgs W conv (isz W l) args = cc at *
    generalize hb0 : isz W l + isz W cc + (1 + (W + (1 + W))) = b0 at *
    generalize hb1 : b0 + (1 + (W + (1 + W))) = b1 at *
    have hs1 := hs1 b1
    generalize compS W conv (fd + 1) b1 body = cb at *
    generalize hb2 : b1 + isz W cb + (1 + W) = b2 at *
    generalize compS W conv fd b2 els = ce at *
    have e1 : l ++ cc ++ [(Ins.rangeStart args.length (UInt8.ofNat fd) x, false)] ++ [(Ins.rangeStep 0 (UInt8.ofNat fd) x, false)] ++ cb ++
        [(Ins.branch 0, false)] ++ ce =
      (l ++ cc ++ [(Ins.rangeStart args.length (UInt8.ofNat fd) x, false)]) ++
        (.rangeStep 0 (UInt8.ofNat fd) x, false) :: (cb ++ (.branch 0, false) :: ce) := by simp
    rw [e1] at h3
    have h4 := h3.loop (i' := .rangeStep b2 (UInt8.ofNat fd) x) (x := 0) (t := b2) (r := UInt8.ofNat fd :: leBytes W x)
      (top := b0) (whileOff := b0)
      (endOff := b1 + isz W cb) (E := b2 + isz W ce) hW (by simp [Ins.operands]) (by simp [Ins.operands]) rfl trivial (by simp) hs1
      (by rw [← hb0]; simp [sz_rangeStart]; try omega)
      (by rw [← hb1, ← hb0]; simp [sz_rangeStep, sz_rangeStart]; try omega) (by rw [← hb2, ← hb1, ← hb0]; simp [sz_rangeStep, sz_rangeStart]; try omega)
    simpa using h4
  | forIn x e body els =>
    have hl : 0 < isz W l := by simpa [startsLine] using hb
    have h0 := (((emitE_rep (conv := conv) hW e wf.2.2.1 h (.inl hl)).add (.assign .plain (forTmp W (UInt8.ofNat fd) 0))).add
      (numIns conv 0)).add (.assign .plain (forTmp W (UInt8.ofNat fd) 1))
    have hpv := h0.prev_add (.inStep 0 (UInt8.ofNat fd) x)
    have h2 := emitS_rep hW (fd + 1) body wf.2.2.2.1 (h0.add (.inStep 0 (UInt8.ofNat fd) x)) (.inl (by simp; omega))
    have hpe := h2.prev_add (.branch 0)
    have h2c := (h2.add (.branch 0)).cur
    have h3 := emitS_rep hW fd els wf.2.2.2.2 (h2.add (.branch 0)) (.inl (by simp; omega))
    simp only [compS, emitS]
    rw [hpv, hpe, h2c]
    have hs1 := fun base => compS_scan (W := W) (conv := conv) (fd + 1) base body wf.2.2.2.1
    simp only [isz_append, isz_cons, isz_nil, sz_assign, sz_inStep, sz_branch, Nat.add_zero] at h3 ⊢
    generalize emitS W conv fd els _ = EB at *
    generalize compE W conv false (isz W l) e = cc at *
    generalize numIns conv 0 = zz at *
    generalize hb0 : isz W l + isz W cc + (1 + W) + zz.size W + (1 + W) = b0 at *
    generalize hb1 : b0 + (1 + (W + (1 + W))) = b1 at *
    have hs1 := hs1 b1
    generalize compS W conv (fd + 1) b1 body = cb at *
    generalize hb2 : b1 + isz W cb + (1 + W) = b2 at *
    generalize compS W conv fd b2 els = ce at *
    generalize hL : l ++ cc ++ [(Ins.assign .plain (forTmp W (UInt8.ofNat fd) 0), false)] ++ [(zz, false)] ++
      [(Ins.assign .plain (forTmp W (UInt8.ofNat fd) 1), false)] = L at *
    have hLs : isz W L = b0 := by rw [← hL, ← hb0]; simp [sz_assign]; omega
    have e1 : L ++ [(Ins.inStep 0 (UInt8.ofNat fd) x, false)] ++ cb ++ [(Ins.branch 0, false)] ++ ce =
      L ++ (.inStep 0 (UInt8.ofNat fd) x, false) :: (cb ++ (.branch 0, false) :: ce) := by simp
    rw [e1] at h3
    have h4 := h3.loop (i' := .inStep b2 (UInt8.ofNat fd) x) (x := 0) (t := b2) (r := UInt8.ofNat fd :: leBytes W x)
      (top := b0) (whileOff := b0)
      (endOff := b1 + isz W cb) (E := b2 + isz W ce) hW (by simp [Ins.operands]) (by simp [Ins.operands]) rfl trivial (by simp) hs1
      (by rw [hLs])
      (by rw [hLs, ← hb1]; simp [sz_inStep]) (by rw [hLs, ← hb2, ← hb1]; simp [sz_inStep])
    rw [← hL] at h4
    simpa using h4
theorem emitElse_rep (hW : 2 ≤ W) (fd : Nat) (s : Else) (wf : WfElse W s) {b : Buf} {l} (h : Rep W b l) (hl : 0 < isz W l) :
    (emitElse W conv fd s b).1 = elseOff W (isz W l) s ∧
    Rep W (emitElse W conv fd s b).2 (l ++ compElse W conv fd (isz W l) s) := by
  cases s with
  | none => simp only [compElse, emitElse, elseOff, List.append_nil]; exact ⟨h.cur, h⟩
  | els s =>
    have h1 := h.add (.forward (fwIf + 58 * 256))
    have h2 := emitS_rep hW fd s wf h1 (.inl (by simp; omega))
    have hc := h1.cur
    simp only [compElse, emitElse, elseOff, Buf.addForward, Buf.addForwardOp]
    refine ⟨by rw [hc]; simp [sz_forward], ?_⟩
    simpa [sz_forward] using h2
  | elif ln c t rest =>
    have h0 := (h.add (.line ln)).add (.forward (fwIf + 58 * 256))
    have hc := h0.cur
    have h1 := emitE_rep (conv := conv) hW c wf.2.1 h0 (.inl (by simp; omega))
    have hpv := h1.prev_add (.branchFalse 0)
    have h2 := emitS_rep hW fd t wf.2.2.1 (h1.add (.branchFalse 0)) (.inl (by simp; omega))
    obtain ⟨ho, h3⟩ := emitElse_rep hW fd rest wf.2.2.2 h2 (by simp; omega)
    simp only [compElse, emitElse, Buf.addForward, Buf.addForwardOp]
    refine ⟨by rw [hc]; simp [elseOff, sz_forward, sz_line]; omega, ?_⟩
    rw [hpv]
    simp only [ho]
    simp only [List.append_assoc] at h3
    have e1 : ∀ X, l ++ ([(Ins.line ln, false)] ++ ([(Ins.forward (fwIf + 58 * 256), false)] ++ X)) =
        l ++ (Ins.line ln, false) :: (Ins.forward (fwIf + 58 * 256), false) :: X := by simp
    simp only [isz_append, isz_cons, isz_nil, sz_branchFalse, sz_line, sz_forward, Nat.add_zero] at h3 ho ⊢
    generalize emitElse W conv fd rest _ = EB at *
    simp only [← Nat.add_assoc] at h3 ho ⊢
    generalize hL : isz W l + 1 + W + 1 + W = b0 at *
    generalize compE W conv false b0 c = cc at *
    generalize hb1 : b0 + isz W cc + 1 + W = b1 at *
    generalize compS W conv fd b1 t = ct at *
    generalize compElse W conv fd (b1 + isz W ct) rest = ce at *
    have h3' : Rep W EB.2 ((l ++ (Ins.line ln, false) :: (Ins.forward (fwIf + 58 * 256), false) :: cc) ++ (Ins.branchFalse 0, false) :: (ct ++ ce)) := by
      simpa using h3
    have h4 := h3'.patchBr (i' := .branchFalse (elseOff W (b1 + isz W ct) rest)) (x := 0) (t := elseOff W (b1 + isz W ct) rest) (r := [])
      (off := b0 + isz W cc) (by simp [Ins.operands]) (by simp [Ins.operands]) rfl (by rw [← hL]; simp [sz_line, sz_forward]; omega)
    simpa using h4
end

end Snek.Lang
