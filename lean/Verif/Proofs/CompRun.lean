import Verif.Proofs.CompRefine
/-!
# The bytes in the buffer, run by the machine
-/
namespace Snek.Lang
open Store (Val)
open Snek.Vm

variable {W : Nat} {conv : BitVec 32 → BitVec 8}

/-! ## Operands fit -/

theorem numIns_fits (u) : (numIns conv u).Fits W := by
  rcases numIns_cases conv u with ⟨b, h⟩ | h <;> rw [h] <;> trivial

theorem pow_two_bytes (hW : 2 ≤ W) : 65536 ≤ 256 ^ W :=
  Nat.le_trans (by decide) (Nat.pow_le_pow_right (by omega : 0 < 256) hW)

mutual
theorem compE_fits (hW : 2 ≤ W) (p : Bool) (base : Nat) (e : Expr) {z} (wf : WfE W z e) (hb : base + isz W (compE W conv p base e) < 256 ^ W) :
    ∀ it ∈ compE W conv p base e, it.1.Fits W := by
  have h64 := pow_two_bytes hW
  cases e with
  | num u => simpa [compE] using numIns_fits u
  | str o => simp only [compE, List.forall_mem_singleton]; exact wf
  | name x => simp only [compE, List.forall_mem_singleton]; exact wf
  | unary op e =>
    simp only [compE, isz_append] at hb
    simp only [compE, List.forall_mem_append, List.forall_mem_singleton]
    exact ⟨compE_fits hW _ _ e wf (by omega), trivial⟩
  | binary op a b =>
    simp only [compE, isz_append] at hb
    simp only [compE, List.forall_mem_append, List.forall_mem_singleton]
    exact ⟨⟨compE_fits hW _ _ a wf.1 (by omega), compE_fits hW _ _ b wf.2 (by omega)⟩, trivial⟩
  | and a b =>
    simp only [compE, isz_append, isz_cons, sz_branchFalse] at hb
    simp only [compE, List.forall_mem_append, List.forall_mem_singleton, List.forall_mem_cons]
    exact ⟨compE_fits hW _ _ a wf.1 (by omega), by simp only [Ins.Fits]; omega, compE_fits hW _ _ b wf.2 (by omega), trivial⟩
  | or a b =>
    simp only [compE, isz_append, isz_cons, sz_branchTrue] at hb
    simp only [compE, List.forall_mem_append, List.forall_mem_singleton, List.forall_mem_cons]
    exact ⟨compE_fits hW _ _ a wf.1 (by omega), by simp only [Ins.Fits]; omega, compE_fits hW _ _ b wf.2 (by omega), trivial⟩
  | cmp a r b more =>
    simp only [compE, isz_append] at hb
    have hz := fun t t' base => (compMore_isz (W := W) (conv := conv) t base r more).symm.trans
      (compMore_isz (W := W) (conv := conv) t' base r more)
    rw [hz _ 0] at hb
    simp only [compE, List.forall_mem_append, List.forall_mem_singleton]
    refine ⟨compE_fits hW _ _ a wf.1 (by omega), compE_fits hW _ _ b wf.2.1 (by omega), ?_, trivial⟩
    refine compMore_fits hW ?_ _ r more wf.2.2 ?_
    · intro c; simp only [Ins.Fits]; omega
    · rw [hz _ 0]; omega
  | index a i =>
    simp only [compE, isz_append] at hb
    simp only [compE, List.forall_mem_append, List.forall_mem_singleton]
    exact ⟨⟨compE_fits hW _ _ a wf.1 (by omega), compE_fits hW _ _ i wf.2 (by omega)⟩, trivial⟩
  | slice a s e t =>
    simp only [compE, isz_append] at hb
    simp only [compE, List.forall_mem_append, List.forall_mem_singleton]
    exact ⟨compE_fits hW _ _ a wf.1 (by omega), compOpt_fits hW _ s wf.2.1 (by omega), compOpt_fits hW _ e wf.2.2.1 (by omega),
      compOpt_fits hW _ t wf.2.2.2 (by omega), trivial⟩
  | call g args named =>
    simp only [compE, isz_append] at hb
    simp only [compE, List.forall_mem_append, List.forall_mem_singleton]
    have h1 := wf.2.2.2.1
    have h2 := wf.2.2.2.2
    exact ⟨compE_fits hW _ _ g wf.1 (by omega), compArgs_fits hW _ args wf.2.1 (by omega), compNamed_fits hW _ named wf.2.2.1 (by omega),
      by simp only [Ins.Fits]; omega⟩
  | build k es =>
    simp only [compE, isz_append] at hb
    simp only [compE, List.forall_mem_append, List.forall_mem_singleton]
    exact ⟨compArgs_fits hW _ es wf.1 (by omega), wf.2.1⟩
theorem compMore_fits (hW : 2 ≤ W) {lk : Vm.CmpOp → Ins} (hl : ∀ c, (lk c).Fits W) (base : Nat) (r : RelOp) (m : Chain) (wf : WfChain W r m)
    (hb : base + isz W (compMore W conv lk base r m) < 256 ^ W) : ∀ it ∈ compMore W conv lk base r m, it.1.Fits W := by
  cases m with
  | nil => simp only [compMore, List.forall_mem_singleton]; trivial
  | cons r' e rest =>
    simp only [compMore, isz_append, isz_cons] at hb
    simp only [compMore, List.forall_mem_append, List.forall_mem_cons]
    refine ⟨?_, compE_fits hW _ _ e wf.2.1 (by omega), compMore_fits hW hl _ r' rest wf.2.2 (by omega)⟩
    cases r <;> exact hl _
theorem compOpt_fits (hW : 2 ≤ W) (base : Nat) (o : OptE) {z} (wf : WfOpt W z o) (hb : base + isz W (compOpt W conv base o) < 256 ^ W) :
    ∀ it ∈ compOpt W conv base o, it.1.Fits W := by
  cases o with
  | none => simp [compOpt]
  | some e => simp only [compOpt] at hb ⊢; exact compE_fits hW true base e wf hb
theorem compArgs_fits (hW : 2 ≤ W) (base : Nat) (es : Exprs) {z} (wf : WfArgs W z es) (hb : base + isz W (compArgs W conv base es) < 256 ^ W) :
    ∀ it ∈ compArgs W conv base es, it.1.Fits W := by
  cases es with
  | nil => simp [compArgs]
  | cons e es =>
    simp only [compArgs, isz_append] at hb
    simp only [compArgs, List.forall_mem_append]
    exact ⟨compE_fits hW _ _ e wf.1 (by omega), compArgs_fits hW _ es wf.2 (by omega)⟩
theorem compNamed_fits (hW : 2 ≤ W) (base : Nat) (es : Named) {z} (wf : WfNamed W z es) (hb : base + isz W (compNamed W conv base es) < 256 ^ W) :
    ∀ it ∈ compNamed W conv base es, it.1.Fits W := by
  cases es with
  | nil => simp [compNamed]
  | cons x e es =>
    simp only [compNamed, isz_append, isz_cons] at hb
    simp only [compNamed, List.forall_mem_append, List.forall_mem_cons]
    exact ⟨numIns_fits _, compE_fits hW _ _ e wf.2.2.1 (by omega), compNamed_fits hW _ es wf.2.2.2 (by omega)⟩
end

theorem patched_fits (k t : Nat) {l : List Item} (h : ∀ it ∈ l, it.1.Fits W) (ht : t < 256 ^ W) :
    ∀ it ∈ l.map (patchItem k t), it.1.Fits W := by
  intro it hit
  obtain ⟨x, hx, rfl⟩ := List.mem_map.1 hit
  unfold patchItem
  split
  · split
    · simp only [fwdIns]; split <;> exact ht
    · exact h x hx
  · exact h x hx

theorem forTmp_lt (d : UInt8) (i : Nat) : forTmp W d i < 256 ^ W := by
  unfold forTmp
  have : (2 : Nat) ^ (8 * W) = 256 ^ W := by rw [Nat.pow_mul]
  have h := Nat.pow_pos (n := W) (show 0 < 256 by omega)
  omega

theorem elseOff_le (base : Nat) (els : Else) {fd} : elseOff W base els ≤ base + isz W (compElse W conv fd base els) := by
  cases els <;> simp [elseOff, compElse, sz_forward, sz_line] <;> omega

mutual
theorem compS_fits (hW : 2 ≤ W) (fd base : Nat) (s : Stmt) {z} (wf : WfS W z s) (hb : base + isz W (compS W conv fd base s) < 256 ^ W) :
    ∀ it ∈ compS W conv fd base s, it.1.Fits W := by
  have h64 := pow_two_bytes hW
  cases s with
  | skip => simp [compS]
  | line n => simp only [compS, List.forall_mem_singleton]; exact wf
  | seq a b =>
    simp only [compS, isz_append] at hb
    simp only [compS, List.forall_mem_append]
    exact ⟨compS_fits hW fd _ a wf.1 (by omega), compS_fits hW fd _ b wf.2 (by omega)⟩
  | expr e => simp only [compS] at hb ⊢; exact compE_fits hW false base e wf hb
  | assign op x e =>
    simp only [compS, isz_append] at hb
    simp only [compS, List.forall_mem_append, List.forall_mem_singleton]
    exact ⟨compE_fits hW _ _ e wf.2.2 (by omega), wf.2.1⟩
  | assignIdx op a i e =>
    simp only [compS, isz_append] at hb
    simp only [compS, List.forall_mem_append, List.forall_mem_singleton]
    exact ⟨compE_fits hW _ _ a wf.1 (by omega), compE_fits hW _ _ i wf.2.1 (by omega), compE_fits hW _ _ e wf.2.2 (by omega),
      by simp only [Ins.Fits]; omega⟩
  | ret e =>
    cases e with
    | none => simp [compS, Ins.Fits]
    | some e =>
      simp only [compS, isz_append] at hb
      simp only [compS, List.forall_mem_append, List.forall_mem_singleton]
      exact ⟨compE_fits hW _ _ e wf (by omega), trivial⟩
  | brk => simp only [compS, List.forall_mem_singleton, Ins.Fits, fwBreak]; omega
  | cont => simp only [compS, List.forall_mem_singleton, Ins.Fits, fwContinue]; omega
  | global x => simp only [compS, List.forall_mem_singleton]; exact wf
  | del x => simpa [compS, Ins.Fits] using wf.2
  | delIdx a i =>
    simp only [compS, isz_append] at hb
    simp only [compS, List.forall_mem_append, List.forall_mem_singleton]
    exact ⟨compE_fits hW _ _ a wf.1 (by omega), compE_fits hW _ _ i wf.2 (by omega), by simp only [Ins.Fits]; omega⟩
  | assert e =>
    simp only [compS, isz_append] at hb
    simp only [compS, List.forall_mem_append, List.forall_mem_singleton]
    exact ⟨compE_fits hW _ _ e wf (by omega), trivial⟩
  | ifs c t els =>
    simp only [compS, isz_append, isz_cons, isz_patch, sz_branchFalse] at hb
    have he := fun base => elseOff_le (W := W) (conv := conv) base els (fd := fd)
    have he1 := he (base + isz W (compE W conv false base c) + (1 + W) + isz W (compS W conv fd (base + isz W (compE W conv false base c) + (1 + W)) t))
    simp only [compS, List.forall_mem_append, List.forall_mem_cons]
    refine ⟨compE_fits hW _ _ c wf.1 (by omega), by simp only [Ins.Fits]; omega, patched_fits _ _ ?_ (by omega)⟩
    rw [List.forall_mem_append]
    exact ⟨compS_fits hW fd _ t wf.2.1 (by omega), compElse_fits hW fd _ els wf.2.2 (by omega)⟩
  | whil c body els =>
    simp only [compS, isz_append, isz_cons, isz_patch, sz_branchFalse, sz_branch] at hb
    simp only [compS, List.forall_mem_append, List.forall_mem_cons]
    exact ⟨compE_fits hW _ _ c wf.1 (by omega), by simp only [Ins.Fits]; omega,
      patched_fits _ _ (patched_fits _ _ (compS_fits hW fd _ body wf.2.1 (by omega)) (by omega)) (by omega),
      by simp only [Ins.Fits]; omega, compS_fits hW fd _ els wf.2.2 (by omega)⟩
  | forRange x args body els =>
    simp only [compS, isz_append, isz_cons, isz_patch, sz_rangeStart, sz_rangeStep, sz_branch] at hb
    simp only [compS, List.forall_mem_append, List.forall_mem_cons]
    exact ⟨compArgs_fits hW _ args wf.2.2.2.1 (by omega), ⟨wf.2.2.1, wf.2.1⟩, ⟨by omega, wf.2.1⟩,
      patched_fits _ _ (patched_fits _ _ (compS_fits hW (fd + 1) _ body wf.2.2.2.2.1 (by omega)) (by omega)) (by omega),
      by simp only [Ins.Fits]; omega, compS_fits hW fd _ els wf.2.2.2.2.2 (by omega)⟩
  | forIn x e body els =>
    simp only [compS, isz_append, isz_cons, isz_patch, sz_assign, sz_inStep, sz_branch] at hb
    simp only [compS, List.forall_mem_append, List.forall_mem_cons]
    exact ⟨compE_fits hW _ _ e wf.2.2.1 (by omega), forTmp_lt _ _, numIns_fits _, forTmp_lt _ _, ⟨by omega, wf.2.1⟩,
      patched_fits _ _ (patched_fits _ _ (compS_fits hW (fd + 1) _ body wf.2.2.2.1 (by omega)) (by omega)) (by omega),
      by simp only [Ins.Fits]; omega, compS_fits hW fd _ els wf.2.2.2.2 (by omega)⟩
theorem compElse_fits (hW : 2 ≤ W) (fd base : Nat) (s : Else) (wf : WfElse W s) (hb : base + isz W (compElse W conv fd base s) < 256 ^ W) :
    ∀ it ∈ compElse W conv fd base s, it.1.Fits W := by
  have h64 := pow_two_bytes hW
  cases s with
  | none => simp [compElse]
  | els s =>
    simp only [compElse, isz_cons, sz_forward] at hb
    simp only [compElse, List.forall_mem_cons]
    exact ⟨by simp only [Ins.Fits, fwIf]; omega, compS_fits hW fd _ s wf (by omega)⟩
  | elif l c t rest =>
    simp only [compElse, isz_cons, isz_append, sz_forward, sz_line, sz_branchFalse] at hb
    simp only [compElse, List.forall_mem_append, List.forall_mem_cons]
    have he := fun base => elseOff_le (W := W) (conv := conv) base rest (fd := fd)
    have he1 := he (base + (1 + W) + (1 + W) + isz W (compE W conv false (base + (1 + W) + (1 + W)) c) + (1 + W) +
      isz W (compS W conv fd (base + (1 + W) + (1 + W) + isz W (compE W conv false (base + (1 + W) + (1 + W)) c) + (1 + W)) t))
    exact ⟨wf.1, by simp only [Ins.Fits, fwIf]; omega, compE_fits hW _ _ c wf.2.1 (by omega), by simp only [Ins.Fits]; omega,
      compS_fits hW fd _ t wf.2.2.1 (by omega), compElse_fits hW fd _ rest wf.2.2.2 (by omega)⟩
end

theorem compDefaults_fits (hW : 2 ≤ W) (base : Nat) (ds : Named) {z} (wf : WfNamed W z ds)
    (hb : base + isz W (compDefaults W conv base ds) < 256 ^ W) : ∀ it ∈ compDefaults W conv base ds, it.1.Fits W := by
  have h64 := pow_two_bytes hW
  cases ds with
  | nil => simp [compDefaults]
  | cons x e rest =>
    simp only [compDefaults, isz_append, isz_cons, sz_assign] at hb
    simp only [compDefaults, List.forall_mem_append, List.forall_mem_cons]
    have hx := wf.2.1
    exact ⟨compE_fits hW _ _ e wf.2.2.1 (by omega), by simp only [Ins.Fits]; omega, compDefaults_fits hW _ rest wf.2.2.2 (by omega)⟩

theorem itemAt_enc {C : List UInt8} (l1 : List Item) (it : Item) (l2 : List Item) (hC : C = enc W (l1 ++ it :: l2)) (hf : it.1.Fits W) :
    ItemAt W C (isz W l1) it := by
  have hp := it.1.size_pos W
  subst hC
  refine ⟨by simp; omega, ?_⟩
  have := fetch_encode W it.1 it.2 (enc W l1) (enc W l2) hf
  simpa [enc] using this

theorem codeAt_enc {C : List UInt8} (l1 l l2 : List Item) (hC : C = enc W (l1 ++ (l ++ l2))) (hf : ∀ it ∈ l, it.1.Fits W) :
    CodeAt W C (isz W l1) l := by
  induction l generalizing l1 with
  | nil => trivial
  | cons it l ih =>
    refine ⟨.inl (itemAt_enc l1 it (l ++ l2) (by simpa using hC) (hf it (by simp))), ?_⟩
    have := ih (l1 ++ [it]) (by simpa using hC) (fun x hx => hf x (by simp [hx]))
    simpa using this

/-! ## The last instruction -/

theorem compE_last_ne (p : Bool) (base : Nat) (e : Expr) : ∃ init i, compE W conv p base e = init ++ [(i, p)] ∧ i ≠ .ret := by
  cases e with
  | num u => exact ⟨[], numIns conv u, by simp [compE], numIns_ne_ret conv u⟩
  | str o => exact ⟨[], .string o, by simp [compE], by simp⟩
  | name x => exact ⟨[], .id x, by simp [compE], by simp⟩
  | unary op e => simp only [compE]; exact ⟨_, _, rfl, by simp⟩
  | binary op a b => simp only [compE]; exact ⟨_, _, rfl, by simp⟩
  | and a b => simp only [compE]; exact ⟨_, .nop, by rw [← List.cons_append, ← List.append_assoc], by simp⟩
  | or a b => simp only [compE]; exact ⟨_, .nop, by rw [← List.cons_append, ← List.append_assoc], by simp⟩
  | cmp a r b more => simp only [compE]; exact ⟨_, .nop, by rw [← List.append_assoc, ← List.append_assoc], by simp⟩
  | index a i => simp only [compE]; exact ⟨_, _, rfl, by simp⟩
  | slice a s e t =>
    simp only [compE]
    exact ⟨_, .slice (sliceFlags s e t), by rw [← List.append_assoc, ← List.append_assoc, ← List.append_assoc], by simp⟩
  | call g args named =>
    simp only [compE]; exact ⟨_, .call (args.length + 256 * named.length), by rw [← List.append_assoc, ← List.append_assoc], by simp⟩
  | build k es => simp only [compE]; exact ⟨_, _, rfl, by simp⟩

/-- The list ends with a return / with something else / is empty. -/
def LastIs (l : List Item) : Option Bool → Prop
  | none => l = []
  | some b => ∃ init it, l = init ++ [it] ∧ (it.1 = .ret ↔ b = true)

theorem LastIs.append {a b : List Item} {x y} (ha : LastIs a x) (hb : LastIs b y) : LastIs (a ++ b) (y.or x) := by
  cases y with
  | none => cases hb; simpa using ha
  | some v =>
    obtain ⟨init, it, rfl, h⟩ := hb
    exact ⟨a ++ init, it, by simp, h⟩

theorem LastIs.cons {a : List Item} {x} {it : Item} (h : it.1 ≠ .ret) (ha : LastIs a x) : LastIs (it :: a) (x.or (some false)) :=
  LastIs.append (a := [it]) (x := some false) ⟨[], it, rfl, by simp [h]⟩ ha

theorem LastIs.pre {a b : List Item} {o : Option Bool} (hb : LastIs b (o.or (some false))) : LastIs (a ++ b) (o.or (some false)) := by
  cases o <;>
  · obtain ⟨init, it, rfl, h⟩ := hb
    exact ⟨a ++ init, it, by simp, h⟩

theorem LastIs.patch {a : List Item} {x} (k t : Nat) (ha : LastIs a x) : LastIs (a.map (patchItem k t)) x := by
  cases x with
  | none => cases ha; rfl
  | some v =>
    obtain ⟨init, it, rfl, h⟩ := ha
    refine ⟨init.map (patchItem k t), patchItem k t it, by simp, ?_⟩
    rw [← h]
    unfold patchItem
    split
    · rename_i f hf
      split
      · simp only [fwdIns]; rw [hf]; split <;> simp
      · rfl
    · rfl

theorem lastIs_E (p base) (e : Expr) : LastIs (compE W conv p base e) (some false) := by
  obtain ⟨init, i, h, hr⟩ := compE_last_ne (W := W) (conv := conv) p base e
  exact ⟨init, (i, p), h, by simp [hr]⟩

theorem lastIs_snoc {l : List Item} {it : Item} (h : it.1 ≠ .ret) : LastIs (l ++ [it]) (some false) := ⟨l, it, rfl, by simp [h]⟩

mutual
theorem lastIs_S (fd base : Nat) (s : Stmt) : LastIs (compS W conv fd base s) (lastIns s) := by
  cases s with
  | skip => simp [compS, lastIns, LastIs]
  | line n => exact ⟨[], (.line n, false), by simp [compS], by simp⟩
  | seq a b => simp only [compS, lastIns]; exact (lastIs_S fd _ a).append (lastIs_S fd _ b)
  | expr e => simp only [compS, lastIns]; exact lastIs_E _ _ _
  | assign op x e => simp only [compS, lastIns]; exact lastIs_snoc (by simp)
  | assignIdx op a i e =>
    simp only [compS, lastIns]; rw [← List.append_assoc, ← List.append_assoc]; exact lastIs_snoc (by simp)
  | ret e =>
    cases e with
    | none => exact ⟨[(.null, false)], (.ret, false), by simp [compS], by simp⟩
    | some e => exact ⟨compE W conv false base e, (.ret, false), by simp [compS], by simp⟩
  | brk => exact ⟨[], (.forward (fwBreak + 58 * 256), false), by simp [compS], by simp⟩
  | cont => exact ⟨[], (.forward (fwContinue + 58 * 256), false), by simp [compS], by simp⟩
  | global x => exact ⟨[], (.global x, false), by simp [compS], by simp⟩
  | del x => exact ⟨[], (.del x, false), by simp [compS], by simp⟩
  | delIdx a i => simp only [compS, lastIns]; rw [← List.append_assoc]; exact lastIs_snoc (by simp)
  | assert e => simp only [compS, lastIns]; exact lastIs_snoc (by simp)
  | ifs c t els =>
    simp only [compS, lastIns]
    rw [← Option.or_assoc]
    exact LastIs.pre (LastIs.cons (by simp) (((lastIs_S fd _ t).append (lastIs_else fd _ els)).patch fwIf _))
  | whil c body els =>
    simp only [compS, lastIns]
    refine LastIs.pre ?_
    rw [← List.cons_append]
    exact LastIs.pre (LastIs.cons (by simp) (lastIs_S fd _ els))
  | forRange x args body els =>
    simp only [compS, lastIns]
    refine LastIs.pre ?_
    rw [← List.cons_append, ← List.cons_append]
    exact LastIs.pre (LastIs.cons (by simp) (lastIs_S fd _ els))
  | forIn x e body els =>
    simp only [compS, lastIns]
    refine LastIs.pre ?_
    rw [← List.cons_append, ← List.cons_append, ← List.cons_append, ← List.cons_append]
    exact LastIs.pre (LastIs.cons (by simp) (lastIs_S fd _ els))
theorem lastIs_else (fd base : Nat) (s : Else) : LastIs (compElse W conv fd base s) (lastElse s) := by
  cases s with
  | none => simp [compElse, lastElse, LastIs]
  | els s => simp only [compElse, lastElse]; exact (lastIs_S fd _ s).cons (by simp)
  | elif l c t rest =>
    simp only [compElse, lastElse]
    rw [← Option.or_assoc, ← List.cons_append, ← List.cons_append]
    exact LastIs.pre (LastIs.cons (by simp) ((lastIs_S fd _ t).append (lastIs_else fd _ rest)))
end

theorem lastIs_D (base : Nat) (ds : Named) : ds = .nil ∨ LastIs (compDefaults W conv base ds) (some false) := by
  cases ds with
  | nil => exact .inl rfl
  | cons x e rest =>
    right
    simp only [compDefaults]
    rcases lastIs_D (base + isz W (compE W conv false base e) + (1 + W)) rest with h | h
    · subst h; simp only [compDefaults]; exact lastIs_snoc (by simp)
    · exact LastIs.pre (o := some false) (LastIs.cons (by simp) h)

/-! ## Functions -/

theorem emitDefaults_rep (hW : 2 ≤ W) (ds : Named) {z : Bool} (wf : WfNamed W z ds) {b : Buf} {l} (h : Rep W b l)
    (hb : 0 < isz W l ∨ ∀ x e rest, ds = .cons x e rest → leftCmp e = false) :
    Rep W (emitDefaults W conv ds b) (l ++ compDefaults W conv (isz W l) ds) := by
  cases ds with
  | nil => simpa only [compDefaults, emitDefaults, List.append_nil] using h
  | cons x e rest =>
    simp only [compDefaults, emitDefaults]
    have h1 := (emitE_rep (conv := conv) hW e wf.2.2.1 h (by
      rcases hb with hb | hb
      · exact .inl hb
      · exact .inr (hb x e rest rfl))).add (.assign .named x)
    have h2 := emitDefaults_rep hW rest wf.2.2.2 h1 (.inl (by simp; have := (Ins.assign .named x).size_pos W; omega))
    simpa [sz_assign, Nat.add_assoc] using h2

theorem opcode_ret (i : Ins) (h : i.opcode = 65) : i = .ret := by
  cases i <;> simp [Ins.opcode] at h ⊢
  case rel r => cases r <;> simp [RelOp.num] at h; rename_i c; cases c <;> simp [CmpOp.num] at h
  case chain c _ => cases c <;> simp [CmpOp.num] at h
  case arith op => cases op <;> simp [BinOp.num] at h
  case assign a _ => cases a <;> simp [AOp.num] at h; rename_i op; cases op <;> simp [BinOp.num] at h
  case mk k _ => cases k <;> simp [MkKind.num] at h
  case unary u => cases u <;> simp [UnOp.num] at h

theorem Rep.empty : Rep W Buf.empty [] := ⟨rfl, fun h => absurd rfl h⟩

variable {σ : Type} {P : Prim σ} {defs : Nat → FunDef}

theorem fnOk_emit (hW : 2 ≤ P.W) (f : FunDef) (wf : FunWf P.W f) (hsz : (emitDef P.W conv f).length < 256 ^ P.W - 1) :
    FnOk P conv (emitDef P.W conv f) f := by
  have h1 := emitDefaults_rep (conv := conv) hW f.defaults wf.defaults Rep.empty (.inr wf.first)
  simp only [List.nil_append, isz_nil] at h1
  have h2 := emitS_rep (conv := conv) hW 0 f.body wf.body h1 (.inr wf.line)
  refine ⟨wf.defaults, wf.body, ?_⟩
  have hpos := startsLine_pos (W := P.W) (conv := conv) (fd := 0) (base := isz P.W (compDefaults P.W conv 0 f.defaults)) f.body wf.line
  have hlast : LastIs (compDefaults P.W conv 0 f.defaults ++ compS P.W conv 0 (isz P.W (compDefaults P.W conv 0 f.defaults)) f.body)
      (lastIns f.body) := by
    have hS := lastIs_S (W := P.W) (conv := conv) 0 (isz P.W (compDefaults P.W conv 0 f.defaults)) f.body
    cases hl : lastIns f.body with
    | none =>
      rw [hl] at hS
      rw [show compS P.W conv 0 (isz P.W (compDefaults P.W conv 0 f.defaults)) f.body = [] from hS] at hpos
      simp at hpos
    | some v =>
      rw [hl] at hS
      obtain ⟨init, it, h, hr⟩ := hS
      exact ⟨_ ++ init, it, by rw [h, List.append_assoc], hr⟩
  have hfitD := compDefaults_fits (conv := conv) hW 0 f.defaults wf.defaults
  have hfitS := compS_fits (conv := conv) hW 0 (isz P.W (compDefaults P.W conv 0 f.defaults)) f.body wf.body
  simp only []
  unfold emitDef at hsz ⊢
  generalize emitS P.W conv 0 f.body (emitDefaults P.W conv f.defaults Buf.empty) = b at *
  generalize hcd : compDefaults P.W conv 0 f.defaults = cd at *
  generalize hcs : compS P.W conv 0 (isz P.W cd) f.body = cs at *
  have hne : cd ++ cs ≠ [] := by
    intro h0; rw [List.append_eq_nil_iff] at h0; rw [h0.2] at hpos; simp at hpos
  obtain ⟨init, ⟨i, p⟩, hl⟩ : ∃ init it, cd ++ cs = init ++ [it] :=
    ⟨(cd ++ cs).dropLast, (cd ++ cs).getLast hne, (List.dropLast_concat_getLast hne).symm⟩
  have hprev := h2.prev hne
  rw [hl, List.dropLast_concat] at hprev
  have hbyte : (b.bytes[b.prev]?.getD 0).toNat = i.opcode + if p then 128 else 0 := by
    rw [hprev, h2.bytes, hl]
    have := encode_head P.W i p (enc P.W init) []
    simpa [enc] using this
  simp only [hbyte] at hsz ⊢
  by_cases hret : i.opcode + (if p then 128 else 0) = 65
  · simp only [hret, if_true] at hsz ⊢
    have hp : p = false := by cases p <;> simp at hret ⊢
    subst hp
    have hi := opcode_ret i (by simpa using hret)
    subst hi
    have hC : b.deletePrev.bytes = enc P.W init := by
      simp only [Buf.deletePrev]
      rw [hprev, h2.bytes, hl]; simp
    rw [hC] at hsz ⊢
    have htot : isz P.W (cd ++ cs) = isz P.W init + 1 := by rw [hl]; simp [sz_ret]
    simp only [enc_length] at hsz
    simp only [isz_append] at htot
    have hf : ∀ it ∈ cd ++ cs, it.1.Fits P.W := by
      rw [List.forall_mem_append]
      exact ⟨hfitD (by omega), hfitS (by omega)⟩
    refine ⟨?_, .inr ?_⟩
    · rw [hl] at hf ⊢
      rw [List.forall_mem_append] at hf
      have := codeAt_enc (C := enc P.W init) [] init [] (by simp) hf.1
      rw [codeAt_append]
      refine ⟨this, ?_, trivial⟩
      exact .inr ⟨rfl, by simp⟩
    · refine wf.tail ?_
      rw [hl] at hlast
      cases hx : lastIns f.body with
      | none => rw [hx] at hlast; simp [LastIs] at hlast
      | some v =>
        rw [hx] at hlast
        obtain ⟨init', it', he, hr⟩ := hlast
        have := (List.append_inj' he rfl).2
        simp only [List.cons.injEq, and_true] at this
        rw [← this] at hr
        simpa using hr
  · simp only [hret, if_false] at hsz ⊢
    have h3 := h2.add .null
    have hC := h3.bytes
    rw [hC] at hsz ⊢
    simp only [enc_length, isz_append, isz_cons, isz_nil, sz_null] at hsz
    have hf : ∀ it ∈ cd ++ cs, it.1.Fits P.W := by
      rw [List.forall_mem_append]
      exact ⟨hfitD (by omega), hfitS (by omega)⟩
    refine ⟨codeAt_enc [] _ [(.null, false)] (by simp) hf, .inl ⟨?_, ?_⟩⟩
    · exact itemAt_enc _ _ [] rfl trivial
    · simp [sz_null]; omega

/-! ## Commands -/

/-- The machine started with the code of a command. -/
theorem command_sim (hW : 2 ≤ P.W) (hF : ∀ k, FunWf P.W (defs k) ∧ P.code k = emitDef P.W conv (defs k) ∧
      (emitDef P.W conv (defs k)).length < 256 ^ P.W - 1)
    (s : Stmt) (wf : WfS P.W false s) (hl : startsLine s = true) (hsz : (emitCommand P.W conv s).length < 256 ^ P.W)
    (e : End σ) (n : Nat) :
    Sim P (start (emitCommand P.W conv s) [] e) (execS P defs n 0 0 s ⟨⟨e.globals, []⟩, e.w⟩)
      (PostS P id ⟨[], 0, []⟩ (emitCommand P.W conv s) (emitCommand P.W conv s).length [] ⟨⟨e.globals, []⟩, e.w⟩) := by
  have h := sim_all (conv := conv) (defs := defs) hW (fun k => by
    obtain ⟨h1, h2, h3⟩ := hF k
    rw [h2]; exact fnOk_emit hW _ h1 h3) n
  have hS := h.2.2.2.2.2.2.2.1
  have hr := emitS_rep (conv := conv) hW 0 s wf Rep.empty (.inr hl)
  simp only [List.nil_append, isz_nil] at hr
  have hC : emitCommand P.W conv s = enc P.W (compS P.W conv 0 0 s) := hr.bytes
  have hlen : (emitCommand P.W conv s).length = 0 + isz P.W (compS P.W conv 0 0 s) := by rw [hC]; simp
  have hcode : CodeAt P.W (emitCommand P.W conv s) 0 (compS P.W conv 0 0 s) :=
    codeAt_enc [] _ [] (by simpa using hC) (compS_fits hW 0 0 s wf (by omega))
  rw [hlen]
  have hid : PatchFn P.W id := ⟨fun _ _ => rfl, fun _ => rfl⟩
  exact hS false 0 0 s ⟨⟨e.globals, []⟩, e.w⟩ id ⟨[], 0, []⟩ (emitCommand P.W conv s) 0 Val.none [] e.line hid wf (by simpa using hcode) ⟨rfl, Nat.zero_le _⟩

end Snek.Lang
