import Verif.Proofs.VmRaw
import Verif.Proofs.Strings
import Verif.Spec.Flow
/-!
# Where the machine can go

The jump targets in compiled code, and the offsets the machine reaches.
-/
namespace Snek.Lang
open Store (Val)
open Snek.Vm

/-- Offset `t` is at the start of an item of `l`, or at the end. -/
def At (W : Nat) : Nat → List Item → Nat → Prop
  | base, [], t => t = base
  | base, it :: l, t => t = base ∨ At W (base + it.1.size W) l t

variable {W : Nat} {conv : BitVec 32 → BitVec 8}

@[simp] theorem at_nil (base t) : At W base [] t ↔ t = base := Iff.rfl
@[simp] theorem at_cons (base t) (it : Item) (l) : At W base (it :: l) t ↔ t = base ∨ At W (base + it.1.size W) l t := Iff.rfl

theorem at_start (base) (l : List Item) : At W base l base := by cases l <;> simp

theorem at_end (base) (l : List Item) : At W base l (base + isz W l) := by
  induction l generalizing base with
  | nil => simp
  | cons it l ih => right; have := ih (base + it.1.size W); simpa [Nat.add_assoc] using this

theorem at_append (base t) (a b : List Item) : At W base (a ++ b) t ↔ At W base a t ∨ At W (base + isz W a) b t := by
  induction a generalizing base with
  | nil => simp; intro h; subst h; exact at_start _ _
  | cons it a ih => simp [ih, or_assoc, Nat.add_assoc]

theorem at_left {base t} {a b : List Item} (h : At W base a t) : At W base (a ++ b) t := (at_append ..).2 (.inl h)
theorem at_right {base t} {a b : List Item} (h : At W (base + isz W a) b t) : At W base (a ++ b) t := (at_append ..).2 (.inr h)

@[simp] theorem at_patch (k x base t) (l : List Item) : At W base (l.map (patchItem k x)) t ↔ At W base l t := by
  induction l generalizing base with
  | nil => simp
  | cons it l ih => simp [ih, patchItem_size]

/-- All jumps of `l` go to offsets with `p`. -/
def Jumps (p : Nat → Prop) (l : List Item) : Prop := ∀ it ∈ l, ∀ t, Spec.Flow.target it.1 = some t → p t

@[simp] theorem jumps_nil (p) : Jumps p [] := by intro it h; cases h
@[simp] theorem jumps_cons (p) (it : Item) (l) : Jumps p (it :: l) ↔ (∀ t, Spec.Flow.target it.1 = some t → p t) ∧ Jumps p l := by
  simp [Jumps]
@[simp] theorem jumps_append (p) (a b : List Item) : Jumps p (a ++ b) ↔ Jumps p a ∧ Jumps p b := by
  simp only [Jumps, List.forall_mem_append]

theorem Jumps.mono {p q : Nat → Prop} {l} (h : Jumps p l) (hq : ∀ t, p t → q t) : Jumps q l := fun it hi t ht => hq t (h it hi t ht)

theorem fwdIns_target (op t : Nat) : Spec.Flow.target (fwdIns op t) = some t := by unfold fwdIns; split <;> rfl

theorem jumps_patch {p : Nat → Prop} {l} (k t : Nat) (h : Jumps p l) (ht : p t) : Jumps p (l.map (patchItem k t)) := by
  intro it hi x hx
  obtain ⟨y, hy, rfl⟩ := List.mem_map.1 hi
  unfold patchItem at hx
  split at hx
  · split at hx
    · rw [fwdIns_target] at hx; cases hx; exact ht
    · exact h y hy x hx
  · exact h y hy x hx

theorem numIns_target (u) : Spec.Flow.target (numIns conv u) = none := by
  rcases numIns_cases conv u with ⟨b, h⟩ | h <;> rw [h] <;> rfl

mutual
theorem compE_jumps (p : Bool) (base : Nat) (e : Expr) : Jumps (At W base (compE W conv p base e)) (compE W conv p base e) := by
  cases e with
  | num u => simp [compE, numIns_target]
  | str o => simp [compE, Spec.Flow.target]
  | name x => simp [compE, Spec.Flow.target]
  | unary op e =>
    simp only [compE, jumps_append, jumps_cons, jumps_nil, and_true]
    exact ⟨(compE_jumps _ _ e).mono fun t h => at_left h, by simp [Spec.Flow.target]⟩
  | binary op a b =>
    simp only [compE, jumps_append, jumps_cons, jumps_nil, and_true]
    exact ⟨⟨(compE_jumps _ _ a).mono fun t h => at_left (at_left h), (compE_jumps _ _ b).mono fun t h => at_left (at_right h)⟩,
      by simp [Spec.Flow.target]⟩
  | and a b =>
    simp only [compE, jumps_append, jumps_cons, jumps_nil, and_true]
    refine ⟨(compE_jumps _ _ a).mono fun t h => at_left h, ?_, ?_, by simp [Spec.Flow.target]⟩
    · intro t ht; cases ht
      refine at_right (.inr (at_left ?_)); rw [sz_branchFalse]; exact at_end _ _
    · refine (compE_jumps _ _ b).mono fun t h => at_right (.inr (at_left ?_)); rw [sz_branchFalse]; exact h
  | or a b =>
    simp only [compE, jumps_append, jumps_cons, jumps_nil, and_true]
    refine ⟨(compE_jumps _ _ a).mono fun t h => at_left h, ?_, ?_, by simp [Spec.Flow.target]⟩
    · intro t ht; cases ht
      refine at_right (.inr (at_left ?_)); rw [sz_branchTrue]; exact at_end _ _
    · refine (compE_jumps _ _ b).mono fun t h => at_right (.inr (at_left ?_)); rw [sz_branchTrue]; exact h
  | cmp a r b more =>
    simp only [compE, jumps_append, jumps_cons, jumps_nil, and_true]
    refine ⟨(compE_jumps _ _ a).mono fun t h => at_left h, (compE_jumps _ _ b).mono fun t h => at_right (at_left h), ?_,
      by simp [Spec.Flow.target]⟩
    refine compMore_jumps (fun o => .chain o _) (fun o t ht => ?_) _ r more (fun t h => at_right (at_right (at_left h)))
    cases ht
    refine at_right (at_right (at_left ?_))
    have hz := fun t base => (compMore_isz (W := W) (conv := conv) t base r more).symm.trans
      (compMore_isz (W := W) (conv := conv) 0 base r more)
    have he := fun t base => at_end (W := W) base (compMore W conv (fun c => Ins.chain c t) base r more)
    simp only [hz] at he
    exact he _ _
  | index a i =>
    simp only [compE, jumps_append, jumps_cons, jumps_nil, and_true]
    exact ⟨⟨(compE_jumps _ _ a).mono fun t h => at_left (at_left h), (compE_jumps _ _ i).mono fun t h => at_left (at_right h)⟩,
      by simp [Spec.Flow.target]⟩
  | slice a s e t =>
    simp only [compE, jumps_append, jumps_cons, jumps_nil, and_true]
    exact ⟨(compE_jumps _ _ a).mono fun t h => at_left h, (compOpt_jumps _ s).mono fun t h => at_right (at_left h),
      (compOpt_jumps _ e).mono fun t h => at_right (at_right (at_left h)),
      (compOpt_jumps _ t).mono fun t h => at_right (at_right (at_right (at_left h))), by simp [Spec.Flow.target]⟩
  | call g args named =>
    simp only [compE, jumps_append, jumps_cons, jumps_nil, and_true]
    exact ⟨(compE_jumps _ _ g).mono fun t h => at_left h, (compArgs_jumps _ args).mono fun t h => at_right (at_left h),
      (compNamed_jumps _ named).mono fun t h => at_right (at_right (at_left h)), by simp [Spec.Flow.target]⟩
  | build k es =>
    simp only [compE, jumps_append, jumps_cons, jumps_nil, and_true]
    exact ⟨(compArgs_jumps _ es).mono fun t h => at_left h, by simp [Spec.Flow.target]⟩
theorem compMore_jumps {q : Nat → Prop} (lk : Vm.CmpOp → Ins) (hl : ∀ c t, Spec.Flow.target (lk c) = some t → q t) (base : Nat) (r : RelOp)
    (m : Chain) (hq : ∀ t, At W base (compMore W conv lk base r m) t → q t) : Jumps q (compMore W conv lk base r m) := by
  cases m with
  | nil => simp [compMore, Spec.Flow.target]
  | cons r' e rest =>
    simp only [compMore] at hq
    simp only [compMore, jumps_append, jumps_cons]
    refine ⟨by cases r <;> exact hl _, (compE_jumps _ _ e).mono fun t h => hq _ (.inr (at_left h)),
      compMore_jumps lk hl _ r' rest fun t h => hq _ (.inr (at_right h))⟩
theorem compOpt_jumps (base : Nat) (o : OptE) : Jumps (At W base (compOpt W conv base o)) (compOpt W conv base o) := by
  cases o with
  | none => simp [compOpt]
  | some e => simp only [compOpt]; exact compE_jumps _ _ e
theorem compArgs_jumps (base : Nat) (es : Exprs) : Jumps (At W base (compArgs W conv base es)) (compArgs W conv base es) := by
  cases es with
  | nil => simp [compArgs]
  | cons e es =>
    simp only [compArgs, jumps_append]
    exact ⟨(compE_jumps _ _ e).mono fun t h => at_left h, (compArgs_jumps _ es).mono fun t h => at_right h⟩
theorem compNamed_jumps (base : Nat) (es : Named) : Jumps (At W base (compNamed W conv base es)) (compNamed W conv base es) := by
  cases es with
  | nil => simp [compNamed]
  | cons x e es =>
    simp only [compNamed, jumps_append, jumps_cons]
    exact ⟨by simp [numIns_target], (compE_jumps _ _ e).mono fun t h => .inr (at_left h),
      (compNamed_jumps _ es).mono fun t h => .inr (at_right h)⟩
end

theorem elseOff_at (base : Nat) (els : Else) {fd} : At W base (compElse W conv fd base els) (elseOff W base els) := by
  cases els with
  | none => simp [compElse, elseOff]
  | els s =>
    simp only [compElse, elseOff]; right; rw [sz_forward]; exact at_start _ _
  | elif l c t rest =>
    simp only [compElse, elseOff]; right; right; rw [sz_forward, sz_line]; exact at_start _ _

mutual
theorem compS_jumps (fd base : Nat) (s : Stmt) : Jumps (At W base (compS W conv fd base s)) (compS W conv fd base s) := by
  cases s with
  | skip => simp [compS]
  | line n => simp [compS, Spec.Flow.target]
  | seq a b =>
    simp only [compS, jumps_append]
    exact ⟨(compS_jumps fd _ a).mono fun t h => at_left h, (compS_jumps fd _ b).mono fun t h => at_right h⟩
  | expr e => simp only [compS]; exact compE_jumps _ _ e
  | assign op x e =>
    simp only [compS, jumps_append, jumps_cons, jumps_nil, and_true]
    exact ⟨(compE_jumps _ _ e).mono fun t h => at_left h, by simp [Spec.Flow.target]⟩
  | assignIdx op a i e =>
    simp only [compS, jumps_append, jumps_cons, jumps_nil, and_true]
    exact ⟨(compE_jumps _ _ a).mono fun t h => at_left h, (compE_jumps _ _ i).mono fun t h => at_right (at_left h),
      (compE_jumps _ _ e).mono fun t h => at_right (at_right (at_left h)), by simp [Spec.Flow.target]⟩
  | ret e =>
    cases e with
    | none => simp [compS, Spec.Flow.target]
    | some e =>
      simp only [compS, jumps_append, jumps_cons, jumps_nil, and_true]
      exact ⟨(compE_jumps _ _ e).mono fun t h => at_left h, by simp [Spec.Flow.target]⟩
  | brk => simp [compS, Spec.Flow.target]
  | cont => simp [compS, Spec.Flow.target]
  | global x => simp [compS, Spec.Flow.target]
  | del x => simp [compS, Spec.Flow.target]
  | delIdx a i =>
    simp only [compS, jumps_append, jumps_cons, jumps_nil, and_true]
    exact ⟨(compE_jumps _ _ a).mono fun t h => at_left h, (compE_jumps _ _ i).mono fun t h => at_right (at_left h), by simp [Spec.Flow.target]⟩
  | assert e =>
    simp only [compS, jumps_append, jumps_cons, jumps_nil, and_true]
    exact ⟨(compE_jumps _ _ e).mono fun t h => at_left h, by simp [Spec.Flow.target]⟩
  | ifs c t els =>
    simp only [compS, jumps_append, jumps_cons]
    refine ⟨(compE_jumps _ _ c).mono fun t h => at_left h, ?_, jumps_patch _ _ ?_ ?_⟩
    · intro t ht; cases ht
      refine at_right (.inr ?_); rw [sz_branchFalse, at_patch]; exact at_right (elseOff_at _ els)
    · rw [jumps_append]
      refine ⟨(compS_jumps fd _ t).mono fun t h => at_right (.inr ?_), (compElse_jumps fd _ els).mono fun t h => at_right (.inr ?_)⟩
      · rw [sz_branchFalse, at_patch]; exact at_left h
      · rw [sz_branchFalse, at_patch]; exact at_right h
    · refine at_right (.inr ?_); rw [sz_branchFalse, at_patch]; exact at_right (at_end _ _)
  | whil c body els =>
    simp only [compS, jumps_append, jumps_cons]
    refine ⟨(compE_jumps _ _ c).mono fun t h => at_left h, ?_, jumps_patch _ _ (jumps_patch _ _ ?_ ?_) ?_, ?_, ?_⟩
    · intro t ht; cases ht
      refine at_right (.inr (at_right (.inr ?_))); simp only [sz_branchFalse, isz_patch, sz_branch]; exact at_start _ _
    · refine (compS_jumps fd _ body).mono fun t h => at_right (.inr (at_left ?_))
      rw [sz_branchFalse, at_patch, at_patch]; exact h
    · exact at_start _ _
    · refine at_right (.inr (at_right (.inr ?_))); simp only [sz_branchFalse, isz_patch, sz_branch]; exact at_end _ _
    · intro t ht; cases ht; exact at_start _ _
    · refine (compS_jumps fd _ els).mono fun t h => at_right (.inr (at_right (.inr ?_)))
      simp only [sz_branchFalse, isz_patch, sz_branch]; exact h
  | forRange x args body els =>
    simp only [compS, jumps_append, jumps_cons]
    refine ⟨(compArgs_jumps _ args).mono fun t h => at_left h, by simp [Spec.Flow.target], ?_, jumps_patch _ _ (jumps_patch _ _ ?_ ?_) ?_, ?_, ?_⟩
    · intro t ht; cases ht
      refine at_right (.inr (.inr (at_right (.inr ?_)))); simp only [sz_rangeStart, sz_rangeStep, isz_patch, sz_branch]; exact at_start _ _
    · refine (compS_jumps (fd + 1) _ body).mono fun t h => at_right (.inr (.inr (at_left ?_)))
      rw [sz_rangeStart, sz_rangeStep, at_patch, at_patch]; exact h
    · refine at_right (.inr (.inl ?_)); rw [sz_rangeStart]
    · refine at_right (.inr (.inr (at_right (.inr ?_)))); simp only [sz_rangeStart, sz_rangeStep, isz_patch, sz_branch]; exact at_end _ _
    · intro t ht; cases ht
      refine at_right (.inr (.inl ?_)); rw [sz_rangeStart]
    · refine (compS_jumps fd _ els).mono fun t h => at_right (.inr (.inr (at_right (.inr ?_))))
      simp only [sz_rangeStart, sz_rangeStep, isz_patch, sz_branch]; exact h
  | forIn x e body els =>
    simp only [compS, jumps_append, jumps_cons]
    refine ⟨(compE_jumps _ _ e).mono fun t h => at_left h, by simp [Spec.Flow.target], by simp [numIns_target], by simp [Spec.Flow.target], ?_,
      jumps_patch _ _ (jumps_patch _ _ ?_ ?_) ?_, ?_, ?_⟩
    · intro t ht; cases ht
      refine at_right (.inr (.inr (.inr (.inr (at_right (.inr ?_)))))); simp only [sz_assign, sz_inStep, isz_patch, sz_branch]
      exact at_start _ _
    · refine (compS_jumps (fd + 1) _ body).mono fun t h => at_right (.inr (.inr (.inr (.inr (at_left ?_)))))
      rw [sz_assign, sz_assign, sz_inStep, at_patch, at_patch]; exact h
    · refine at_right (.inr (.inr (.inr (.inl ?_)))); rw [sz_assign, sz_assign]
    · refine at_right (.inr (.inr (.inr (.inr (at_right (.inr ?_)))))); simp only [sz_assign, sz_inStep, isz_patch, sz_branch]
      exact at_end _ _
    · intro t ht; cases ht
      refine at_right (.inr (.inr (.inr (.inl ?_)))); rw [sz_assign, sz_assign]
    · refine (compS_jumps fd _ els).mono fun t h => at_right (.inr (.inr (.inr (.inr (at_right (.inr ?_))))))
      simp only [sz_assign, sz_inStep, isz_patch, sz_branch]; exact h
theorem compElse_jumps (fd base : Nat) (s : Else) : Jumps (At W base (compElse W conv fd base s)) (compElse W conv fd base s) := by
  cases s with
  | none => simp [compElse]
  | els s =>
    simp only [compElse, jumps_cons]
    refine ⟨by simp [Spec.Flow.target], (compS_jumps fd _ s).mono fun t h => .inr ?_⟩
    rw [sz_forward]; exact h
  | elif l c t rest =>
    simp only [compElse, jumps_cons, jumps_append]
    refine ⟨by simp [Spec.Flow.target], by simp [Spec.Flow.target], (compE_jumps _ _ c).mono fun t h => .inr (.inr (at_left ?_)), ?_,
      (compS_jumps fd _ t).mono fun t h => .inr (.inr (at_right (.inr (at_left ?_)))),
      (compElse_jumps fd _ rest).mono fun t h => .inr (.inr (at_right (.inr (at_right ?_))))⟩
    · rw [sz_forward, sz_line]; exact h
    · intro t ht; cases ht
      refine .inr (.inr (at_right (.inr (at_right ?_)))); rw [sz_forward, sz_line, sz_branchFalse]; exact elseOff_at _ rest
    · rw [sz_forward, sz_line, sz_branchFalse]; exact h
    · rw [sz_forward, sz_line, sz_branchFalse]; exact h
end

theorem compDefaults_jumps (base : Nat) (ds : Named) :
    Jumps (At W base (compDefaults W conv base ds)) (compDefaults W conv base ds) := by
  cases ds with
  | nil => simp [compDefaults]
  | cons x e rest =>
    simp only [compDefaults, jumps_append, jumps_cons]
    refine ⟨(compE_jumps _ _ e).mono fun t h => at_left h, by simp [Spec.Flow.target],
      (compDefaults_jumps _ rest).mono fun t h => at_right (.inr ?_)⟩
    rw [sz_assign]; exact h

/-! ## String constants -/

open Spec.Flow

/-! ## From items to bytes -/

theorem at_split {base t : Nat} {l : List Item} (h : At W base l t) : ∃ l1 l2, l = l1 ++ l2 ∧ t = base + isz W l1 := by
  induction l generalizing base with
  | nil => exact ⟨[], [], rfl, h⟩
  | cons it l ih =>
    rcases h with h | h
    · exact ⟨[], it :: l, rfl, by simpa using h⟩
    · obtain ⟨l1, l2, h1, h2⟩ := ih h
      exact ⟨it :: l1, l2, by rw [h1]; rfl, by rw [h2]; simp; omega⟩

/-- Where an instruction starts, an item does. -/
theorem boundary_item {C : List UInt8} {l : List Item} (hC : C = enc W l) (hf : ∀ it ∈ l, it.1.Fits W) {ip : Nat} (h : At W 0 l ip)
    (hlt : ip < C.length) : ∃ l1 it l2, l = l1 ++ it :: l2 ∧ ip = isz W l1 ∧ fetch W C ip = (it.1, it.2, ip + it.1.size W) := by
  obtain ⟨l1, l2, h1, h2⟩ := at_split h
  rw [Nat.zero_add] at h2
  cases l2 with
  | nil =>
    rw [List.append_nil] at h1
    rw [hC, enc_length, h1, h2] at hlt
    omega
  | cons it l2 =>
    refine ⟨l1, it, l2, h1, h2, ?_⟩
    have := itemAt_enc (C := C) l1 it l2 (by rw [hC, h1]) (hf it (by rw [h1]; simp))
    rw [h2]; exact this.2

theorem boundary_at {C : List UInt8} {l : List Item} (hC : C = enc W l) (hf : ∀ it ∈ l, it.1.Fits W) {ip : Nat}
    (h : Boundary W C ip) : At W 0 l ip := by
  induction h with
  | first => exact at_start _ _
  | @next ip hb hlt ih =>
    obtain ⟨l1, it, l2, h1, h2, h3⟩ := boundary_item hC hf ih hlt
    rw [h3, h1]
    refine at_right (.inr ?_)
    rw [Nat.zero_add, h2]; exact at_start _ _

theorem at_boundary' {C : List UInt8} {l : List Item} (hC : C = enc W l) (hf : ∀ it ∈ l, it.1.Fits W) (l1 l2 l3 : List Item)
    (h : l = l1 ++ (l2 ++ l3)) (hb : Boundary W C (isz W l1)) : Boundary W C (isz W (l1 ++ l2)) := by
  induction l2 generalizing l1 with
  | nil => simpa using hb
  | cons it l2 ih =>
    have hi := itemAt_enc (C := C) l1 it (l2 ++ l3) (by rw [hC, h]; simp) (hf it (by rw [h]; simp))
    have hn := hb.next hi.1
    rw [hi.2] at hn
    have := ih (l1 ++ [it]) (by simpa using h) (by simpa using hn)
    simpa using this

theorem at_boundary {C : List UInt8} {l : List Item} (hC : C = enc W l) (hf : ∀ it ∈ l, it.1.Fits W) {l1 l2 : List Item}
    (h : l = l1 ++ l2) : Boundary W C (isz W l1) :=
  at_boundary' hC hf [] l1 l2 h .first

theorem sound_enc {C : List UInt8} {l : List Item} (hC : C = enc W l) (hf : ∀ it ∈ l, it.1.Fits W)
    (hj : Jumps (fun t => At W 0 l t ∨ isz W l ≤ t) l) : Sound W C := by
  intro ip hb hlt
  obtain ⟨l1, it, l2, h1, h2, h3⟩ := boundary_item hC hf (boundary_at hC hf hb) hlt
  rw [h3]
  refine ⟨?_, fun t ht => ?_⟩
  · rw [hC, enc_length, h1, h2]; simp only [isz_append, isz_cons]; omega
  · rcases hj it (by rw [h1]; simp) t ht with h | h
    · obtain ⟨m1, m2, hm, hx⟩ := at_split h
      rw [hx, Nat.zero_add]
      exact .inl (at_boundary hC hf hm)
    · right; rw [hC, enc_length]; exact h

theorem strings_enc {C : List UInt8} {l : List Item} {q : List Nat} (hC : C = enc W l) (hf : ∀ it ∈ l, it.1.Fits W)
    (hj : ∀ o ∈ l.filterMap itemStr, o ∈ q) : StringsIn W C q := by
  intro ip hb hlt o ho
  obtain ⟨l1, it, l2, h1, h2, h3⟩ := boundary_item hC hf (boundary_at hC hf hb) hlt
  rw [h3] at ho
  refine hj o (List.mem_filterMap.2 ⟨it, by rw [h1]; simp, ?_⟩)
  simp only [] at ho; simp [itemStr, ho]

theorem command_flow (hW : 2 ≤ W) {s : Stmt} (wf : CmdWf W conv s) :
    Sound W (emitCommand W conv s) ∧ StringsIn W (emitCommand W conv s) (strsS s) := by
  have hr := emitS_rep (conv := conv) hW 0 s wf.wf Rep.empty (.inr wf.line)
  simp only [List.nil_append, isz_nil] at hr
  have hC : emitCommand W conv s = enc W (compS W conv 0 0 s) := hr.bytes
  have hf := compS_fits (conv := conv) hW 0 0 s wf.wf (by have := wf.small; rw [hC, enc_length] at this; omega)
  exact ⟨sound_enc hC hf ((compS_jumps 0 0 s).mono fun t h => .inl h), strings_enc hC hf (by rw [compS_strs]; exact fun _ h => h)⟩

theorem function_flow (hW : 2 ≤ W) {f : FunDef} (wf : FunWf W f) (hsz : (emitDef W conv f).length < 256 ^ W - 1) :
    Sound W (emitDef W conv f) ∧ StringsIn W (emitDef W conv f) (strsF f) := by
  have h1 := emitDefaults_rep (conv := conv) hW f.defaults wf.defaults Rep.empty (.inr wf.first)
  simp only [List.nil_append, isz_nil] at h1
  have h2 := emitS_rep (conv := conv) hW 0 f.body wf.body h1 (.inr wf.line)
  have hpos := startsLine_pos (W := W) (conv := conv) (fd := 0) (base := isz W (compDefaults W conv 0 f.defaults)) f.body wf.line
  have hfitD := compDefaults_fits (conv := conv) hW 0 f.defaults wf.defaults
  have hfitS := compS_fits (conv := conv) hW 0 (isz W (compDefaults W conv 0 f.defaults)) f.body wf.body
  have hjD := compDefaults_jumps (W := W) (conv := conv) 0 f.defaults
  have hjS := compS_jumps (W := W) (conv := conv) 0 (isz W (compDefaults W conv 0 f.defaults)) f.body
  have hsD := compDefaults_strs (W := W) (conv := conv) 0 f.defaults
  have hsS := compS_strs (W := W) (conv := conv) 0 (isz W (compDefaults W conv 0 f.defaults)) f.body
  unfold emitDef at hsz ⊢
  generalize emitS W conv 0 f.body (emitDefaults W conv f.defaults Buf.empty) = b at *
  generalize hcd : compDefaults W conv 0 f.defaults = cd at *
  generalize hcs : compS W conv 0 (isz W cd) f.body = cs at *
  have hj : Jumps (At W 0 (cd ++ cs)) (cd ++ cs) := by
    rw [jumps_append]
    exact ⟨hjD.mono fun t h => at_left h, hjS.mono fun t h => at_right (by rw [Nat.zero_add]; exact h)⟩
  have hs : ∀ o ∈ (cd ++ cs).filterMap itemStr, o ∈ strsF f := by
    rw [List.filterMap_append, hsD, hsS]; exact fun _ h => h
  have hne : cd ++ cs ≠ [] := by
    intro h0; rw [List.append_eq_nil_iff] at h0; rw [h0.2] at hpos; simp at hpos
  obtain ⟨init, ⟨i, p⟩, hl⟩ : ∃ init it, cd ++ cs = init ++ [it] :=
    ⟨(cd ++ cs).dropLast, (cd ++ cs).getLast hne, (List.dropLast_concat_getLast hne).symm⟩
  have hprev := h2.prev hne
  rw [hl, List.dropLast_concat] at hprev
  have hbyte : (b.bytes[b.prev]?.getD 0).toNat = i.opcode + if p then 128 else 0 := by
    rw [hprev, h2.bytes, hl]
    have := encode_head W i p (enc W init) []
    simpa [enc] using this
  simp only [hbyte] at hsz ⊢
  by_cases hret : i.opcode + (if p then 128 else 0) = 65
  · simp only [hret, if_true] at hsz ⊢
    have hp : p = false := by cases p <;> simp at hret ⊢
    subst hp
    have hi := opcode_ret i (by simpa using hret)
    subst hi
    have hC : b.deletePrev.bytes = enc W init := by
      simp only [Buf.deletePrev]
      rw [hprev, h2.bytes, hl]; simp
    rw [hC] at hsz ⊢
    have htot : isz W (cd ++ cs) = isz W init + 1 := by rw [hl]; simp [sz_ret]
    simp only [enc_length] at hsz
    simp only [isz_append] at htot
    have hf : ∀ it ∈ cd ++ cs, it.1.Fits W := by
      rw [List.forall_mem_append]
      exact ⟨hfitD (by omega), hfitS (by omega)⟩
    rw [hl] at hj hs hf
    rw [List.forall_mem_append] at hf
    rw [jumps_append] at hj
    rw [List.filterMap_append] at hs
    refine ⟨sound_enc rfl hf.1 (hj.1.mono fun t h => ?_), strings_enc rfl hf.1 fun o h => hs o (List.mem_append_left _ h)⟩
    rcases (at_append ..).1 h with h | h
    · exact .inl h
    · simp at h; right; omega
  · simp only [hret, if_false] at hsz ⊢
    have h3 := h2.add .null
    have hC := h3.bytes
    rw [hC] at hsz ⊢
    simp only [enc_length, isz_append, isz_cons, isz_nil, sz_null] at hsz
    have hf : ∀ it ∈ cd ++ cs ++ [(.null, false)], it.1.Fits W := by
      rw [List.forall_mem_append, List.forall_mem_append]
      exact ⟨⟨hfitD (by omega), hfitS (by omega)⟩, by simp [Ins.Fits]⟩
    refine ⟨sound_enc rfl hf ?_, strings_enc rfl hf ?_⟩
    · rw [jumps_append]
      exact ⟨hj.mono fun t h => .inl (at_left h), by simp [Spec.Flow.target]⟩
    · rw [List.filterMap_append]; simpa [itemStr] using hs

/-! ## The machine -/

section machine
variable {σ : Type} {P : Prim σ}

/-- Where the machine goes after an instruction: on, to the target, to the end, or into a function. -/
def Goes (P : Prim σ) (i : Ins) (ip0 : Nat) (s s' : Vm σ) : Prop :=
  (s'.code = s.code ∧ s'.fr.frames.map (fun f => (f.code, f.ip)) = s.fr.frames.map (fun f => (f.code, f.ip)) ∧
    (s'.ip = s.ip ∨ target i = some s'.ip ∨ s'.ip = s.code.length)) ∨
  ((∃ n, i = .call n) ∧ (∃ k, s'.code = P.code k) ∧ s'.ip = 0 ∧ ∃ vars, s'.fr.frames = ⟨vars, s.code, ip0⟩ :: s.fr.frames)

/-- The same for results. -/
def GoesR (P : Prim σ) (i : Ins) (ip0 : Nat) (s : Vm σ) : ExR σ → Prop
  | .ok s' _ => Goes P i ip0 s s'
  | _ => True

/-- `t` differs from `s` only in stack and state. -/
def SameIp (s t : Vm σ) : Prop := t.code = s.code ∧ t.fr = s.fr ∧ t.ip = s.ip

theorem SameIp.rfl' {s : Vm σ} : SameIp s s := ⟨rfl, rfl, rfl⟩

theorem SameIp.goes {i ip0} {s t t' : Vm σ} (h : SameIp s t) (h1 : t'.code = t.code) (h2 : SameAct t.fr t'.fr)
    (h3 : t'.ip = t.ip ∨ target i = some t'.ip ∨ t'.ip = t.code.length) : Goes P i ip0 s t' := by
  refine .inl ⟨h1.trans h.1, ?_, ?_⟩
  · rw [h2.2, h.2.1]
  · rw [h.2.2, h.1] at h3; exact h3

theorem goesR_res {i ip0} {s t : Vm σ} (h : SameIp s t) {fr : Frames Val (List UInt8)} (hfr : SameAct t.fr fr) (p : Bool)
    (o : Option Val × σ) : GoesR P i ip0 s ({ t with fr := fr }.res p o) := by
  rcases o with ⟨_ | v, w⟩
  · trivial
  · exact h.goes rfl hfr (.inl rfl)

theorem goesR_pop {i ip0} {s t : Vm σ} (h : SameIp s t) (k : Val → Vm σ → ExR σ)
    (hk : ∀ x t', SameIp s t' → GoesR P i ip0 s (k x t')) : GoesR P i ip0 s (t.pop k) := by
  unfold Vm.pop
  split
  · trivial
  · exact hk _ _ ⟨h.1, h.2.1, h.2.2⟩

theorem goesR_popIf {i ip0} {s t : Vm σ} (h : SameIp s t) (b : Bool) (k : Option Val → Vm σ → ExR σ)
    (hk : ∀ x t', SameIp s t' → GoesR P i ip0 s (k x t')) : GoesR P i ip0 s (t.popIf b k) := by
  unfold Vm.popIf
  split
  · exact goesR_pop h _ (fun x t' => hk _ t')
  · exact hk _ _ h

theorem goesR_popN {i ip0} {s t : Vm σ} (h : SameIp s t) (n : Nat) (k : List Val → Vm σ → ExR σ)
    (hk : ∀ x t', SameIp s t' → GoesR P i ip0 s (k x t')) : GoesR P i ip0 s (t.popN n k) := by
  unfold Vm.popN
  split
  · exact hk _ _ ⟨h.1, h.2.1, h.2.2⟩
  · trivial

theorem exec1_goes (P : Prim σ) (i : Ins) (push : Bool) (ip0 : Nat) (s : Vm σ) : GoesR P i ip0 s (exec1 P i push ip0 s) := by
  have r0 := SameIp.rfl' (s := s)
  cases i with
  | chain c t =>
    simp only [exec1]
    refine goesR_pop r0 _ fun x t' h => ?_
    split
    · trivial
    · split
      · exact h.goes rfl .rfl' (.inl rfl)
      · exact h.goes rfl .rfl' (.inr (.inl rfl))
  | rel r => simp only [exec1]; exact goesR_pop r0 _ fun x t' h => goesR_res h .rfl' _ _
  | array => simp only [exec1]; exact goesR_pop r0 _ fun x t' h => goesR_res h .rfl' _ _
  | arith op => simp only [exec1]; exact goesR_pop r0 _ fun x t' h => goesR_res h .rfl' _ _
  | assign a x =>
    simp only [exec1]
    split
    · exact goesR_pop r0 _ fun x t' h => goesR_pop h _ fun x t' h => goesR_res h .rfl' _ _
    · exact goesR_res r0 (act_assignId s.fr P a x s.acc s.w) _ _
  | num u => exact r0.goes rfl .rfl' (.inl rfl)
  | int b => exact r0.goes rfl .rfl' (.inl rfl)
  | string o => exact r0.goes rfl .rfl' (.inl rfl)
  | mk k n => simp only [exec1]; exact goesR_popN r0 _ _ fun x t' h => goesR_res h .rfl' _ _
  | id x =>
    simp only [exec1]
    split
    · exact r0.goes rfl .rfl' (.inl rfl)
    · trivial
  | unary u =>
    cases u with
    | not => exact r0.goes rfl .rfl' (.inl rfl)
    | uminus => exact goesR_res r0 .rfl' _ _
    | lnot => exact goesR_res r0 .rfl' _ _
  | call n =>
    simp only [exec1, callIns, Vm.popN, Vm.pop]
    split
    · split
      · trivial
      · rename_i x l hx
        split
        · split
          · trivial
          · split
            · exact .inr ⟨⟨n, rfl⟩, ⟨_, rfl⟩, rfl, _, rfl⟩
            · trivial
        · exact goesR_res (s := s) (t := { s with stack := l }) ⟨rfl, rfl, rfl⟩ .rfl' _ _
        · trivial
    · trivial
  | slice f =>
    simp only [exec1]
    exact goesR_popIf r0 _ _ fun x t' h => goesR_popIf h _ _ fun x t' h => goesR_popIf h _ _ fun x t' h =>
      goesR_pop h _ fun x t' h => goesR_res h .rfl' _ _
  | global x =>
    simp only [exec1]
    split
    · trivial
    · exact r0.goes rfl (act_markGlobal s.fr x _) (.inl rfl)
  | del x =>
    simp only [exec1]
    split
    · refine goesR_pop r0 _ fun x t' h => ?_
      split
      · exact h.goes rfl .rfl' (.inl rfl)
      · trivial
    · exact r0.goes rfl (act_idDel s.fr _ x) (.inl rfl)
  | assert =>
    simp only [exec1]; split
    · exact r0.goes rfl .rfl' (.inl rfl)
    · trivial
  | branch t => exact r0.goes rfl .rfl' (.inr (.inl rfl))
  | branchTrue t =>
    simp only [exec1]; split
    · exact r0.goes rfl .rfl' (.inr (.inl rfl))
    · exact r0.goes rfl .rfl' (.inl rfl)
  | branchFalse t =>
    simp only [exec1]; split
    · exact r0.goes rfl .rfl' (.inl rfl)
    · exact r0.goes rfl .rfl' (.inr (.inl rfl))
  | forward f => trivial
  | rangeStart n d x =>
    simp only [exec1]
    refine goesR_popN r0 _ _ fun l t' h => ?_
    have ha := act_rangeStart t'.fr P x d l t'.w
    split
    · rename_i heq
      rw [heq] at ha
      exact h.goes rfl ha (.inl rfl)
    · trivial
  | rangeStep t d x =>
    simp only [exec1]
    have ha := act_rangeStep s.fr P x d
    split
    · rename_i heq; rw [heq] at ha; exact r0.goes rfl ha (.inl rfl)
    · rename_i heq; rw [heq] at ha; exact r0.goes rfl ha (.inr (.inl rfl))
    · trivial
  | inStep t d x =>
    simp only [exec1]
    have ha := act_inStep s.fr P x d s.w
    split
    · rename_i heq; rw [heq] at ha; exact r0.goes rfl ha (.inl rfl)
    · rename_i heq; rw [heq] at ha; exact r0.goes rfl ha (.inr (.inl rfl))
    · trivial
  | ret => exact r0.goes rfl .rfl' (.inr (.inr rfl))
  | line n => exact r0.goes rfl .rfl' (.inl rfl)
  | null => exact r0.goes rfl .rfl' (.inl rfl)
  | nop => exact r0.goes rfl .rfl' (.inl rfl)

/-- A place in a block of the program: at an instruction, or past the end. -/
def Place (W : Nat) (blocks : List UInt8 → Prop) (C : List UInt8) (ip : Nat) : Prop :=
  blocks C ∧ (Boundary W C ip ∨ C.length ≤ ip)

/-- The saved places are calls. -/
def Saved (W : Nat) (blocks : List UInt8 → Prop) (c : List UInt8 × Nat) : Prop :=
  blocks c.1 ∧ Boundary W c.1 c.2 ∧ c.2 < c.1.length ∧ ∃ n, (fetch W c.1 c.2).1 = .call n

/-- What holds in every reachable state. -/
structure Flowing (P : Prim σ) (blocks : List UInt8 → Prop) (s : Vm σ) : Prop where
  place : Place P.W blocks s.code s.ip
  saved : ∀ c ∈ s.fr.frames.map (fun f => (f.code, f.ip)), Saved P.W blocks c

theorem ite_fst {α β : Type} {c : Prop} [Decidable c] {a b : α × β} {i : α} (h : (if c then a else b).1 = i) :
    (c ∧ a.1 = i) ∨ (¬ c ∧ b.1 = i) := by
  split at h
  · exact .inl ⟨‹_›, h⟩
  · exact .inr ⟨‹_›, h⟩

theorem fetch_call {C : List UInt8} {ip n : Nat} (h : (fetch W C ip).1 = .call n) : (fetch W C ip).2.2 = ip + W + 1 := by
  unfold fetch at h ⊢
  simp only [] at h ⊢
  generalize (C[ip]?.getD 0).toNat % 128 = op at h ⊢
  have hop : op = 53 := by
    repeat (rcases ite_fst h with ⟨_, h'⟩ | ⟨_, h'⟩; · first | (cases h'; done) | omega
            clear h; have h := h'; clear h')
    cases h
  subst hop
  simp; omega

theorem Flowing.step {blocks : List UInt8 → Prop} (hs : ∀ C, blocks C → Sound P.W C) (hc : ∀ k, blocks (P.code k)) {s t : Vm σ}
    (h : Flowing P blocks s) (hst : Snek.Vm.step P s = .run t) : Flowing P blocks t := by
  unfold Snek.Vm.step at hst
  split at hst
  · rename_i hlt
    have hb : Boundary P.W s.code s.ip := by rcases h.place.2 with h | h; exact h; omega
    have hso := hs _ h.place.1 _ hb hlt
    have hnext := hb.next hlt
    simp only [] at hst
    have hg := exec1_goes P (fetch P.W s.code s.ip).1 (fetch P.W s.code s.ip).2.1 s.ip { s with ip := (fetch P.W s.code s.ip).2.2 }
    revert hst hg
    cases exec1 P (fetch P.W s.code s.ip).1 (fetch P.W s.code s.ip).2.1 s.ip { s with ip := (fetch P.W s.code s.ip).2.2 } with
    | fault => simp
    | error s' => simp
    | ok s' p =>
      intro hst hg
      have hf : Flowing P blocks s' := by
        rcases hg with ⟨h1, h2, h3⟩ | ⟨⟨n, h1⟩, ⟨k, h2⟩, h3, vars, h4⟩
        · refine ⟨⟨by rw [h1]; exact h.place.1, ?_⟩, by rw [h2]; exact h.saved⟩
          rw [h1]
          rcases h3 with h3 | h3 | h3
          · rw [h3]; exact .inl hnext
          · exact hso.2 _ h3
          · rw [h3]; exact .inr (Nat.le_refl _)
        · refine ⟨⟨by rw [h2]; exact hc k, by rw [h3]; exact .inl .first⟩, ?_⟩
          rw [h4]
          simp only [List.map_cons, List.forall_mem_cons]
          exact ⟨⟨h.place.1, hb, hlt, n, h1⟩, h.saved⟩
      simp only [] at hst
      split at hst
      · cases hst
      · split at hst
        · cases hst; unfold Vm.pushAcc; split
          · exact ⟨hf.place, hf.saved⟩
          · exact ⟨hf.place, hf.saved⟩
        · cases hst; exact hf
  · have hsv := h.saved
    split at hst
    · split at hst <;> cases hst
    · rename_i c ip fr heq
      have hfr : s.fr.frames.map (fun f => (f.code, f.ip)) = (c, ip) :: fr.frames.map (fun f => (f.code, f.ip)) := by
        unfold framePop at heq
        split at heq
        · cases heq
        · rename_i hh; cases heq; rw [hh]; simp
      rw [hfr] at hsv
      simp only [List.forall_mem_cons] at hsv
      obtain ⟨⟨h1, h2, h3, n, h4⟩, h5⟩ := hsv
      have hn := h2.next h3
      rw [fetch_call h4] at hn
      have hf : Flowing P blocks { s with code := c, ip := ip + P.W + 1, fr := fr } := ⟨⟨h1, .inl hn⟩, h5⟩
      split at hst
      · cases hst; unfold Vm.pushAcc; split
        · exact ⟨hf.place, hf.saved⟩
        · exact ⟨hf.place, hf.saved⟩
      · cases hst; exact hf

theorem Flowing.steps {blocks : List UInt8 → Prop} (hs : ∀ C, blocks C → Sound P.W C) (hc : ∀ k, blocks (P.code k)) {s t : Vm σ}
    (h : Flowing P blocks s) (hst : Steps P s t) : Flowing P blocks t := by
  induction hst with
  | refl => exact h
  | step h1 _ ih => exact ih (h.step hs hc h1)

end machine

end Snek.Lang
