import Verif.Proofs.VmEmb
import Verif.Spec.Run
import Verif.Proofs.Comp
/-!
# Simulation: vocabulary and rules
-/
namespace Snek.Lang
open Store (Val)
open Snek.Vm

variable {σ α β : Type} {P : Prim σ}

theorem Steps.trans {a b c : Vm σ} (h1 : Steps P a b) (h2 : Steps P b c) : Steps P a c := by
  induction h1 with
  | refl => exact h2
  | step h _ ih => exact .step h (ih h2)

theorem Steps.one {a b : Vm σ} (h : Snek.Vm.step P a = .run b) : Steps P a b := .step h (.refl _)

/-- The machine in state `vm` does what `r` says. -/
def Sim (P : Prim σ) (vm : Vm σ) (r : R σ α) (Post : α → St σ → Vm σ → Prop) : Prop :=
  match r with
  | .ok a s => ∃ vm', Steps P vm vm' ∧ Post a s vm'
  | .err g w => ∃ vm' e, Steps P vm vm' ∧ step P vm' = .abort e ∧ e.globals = g ∧ e.w = w
  | .over => ∃ vm', Steps P vm vm' ∧ vm'.pend = true
  | .time g w => ∃ vm', Steps P vm vm' ∧ vm'.fr.globals = g ∧ vm'.w = w

theorem Sim.bind {vm : Vm σ} {r : R σ α} {k : α → St σ → R σ β} {Q Post}
    (h : Sim P vm r Q) (hk : ∀ a s vm', Q a s vm' → Sim P vm' (k a s) Post) : Sim P vm (r.bind k) Post := by
  cases r with
  | ok a s =>
    obtain ⟨vm', h1, h2⟩ := h
    have h3 := hk a s vm' h2
    simp only [R.bind]
    revert h3
    cases k a s with
    | ok b s' => rintro ⟨vm'', h4, h5⟩; exact ⟨vm'', h1.trans h4, h5⟩
    | err g w => rintro ⟨vm'', e, h4, h5⟩; exact ⟨vm'', e, h1.trans h4, h5⟩
    | over => rintro ⟨vm'', h4, h5⟩; exact ⟨vm'', h1.trans h4, h5⟩
    | time => rintro ⟨vm'', h4, h5⟩; exact ⟨vm'', h1.trans h4, h5⟩
  | err g w => exact h
  | over => exact h
  | time => exact h

theorem Sim.steps {vm vm1 : Vm σ} {r : R σ α} {Post} (h : Steps P vm vm1) (h2 : Sim P vm1 r Post) : Sim P vm r Post := by
  cases r with
  | ok b s' => obtain ⟨vm'', h4, h5⟩ := h2; exact ⟨vm'', h.trans h4, h5⟩
  | err g w => obtain ⟨vm'', e, h4, h5⟩ := h2; exact ⟨vm'', e, h.trans h4, h5⟩
  | over => obtain ⟨vm'', h4, h5⟩ := h2; exact ⟨vm'', h.trans h4, h5⟩
  | time => obtain ⟨vm'', h4, h5⟩ := h2; exact ⟨vm'', h.trans h4, h5⟩

theorem Sim.mono {vm : Vm σ} {r : R σ α} {Q Post : α → St σ → Vm σ → Prop} (h : Sim P vm r Q)
    (hk : ∀ a s vm', Q a s vm' → Post a s vm') : Sim P vm r Post := by
  cases r with
  | ok a s => obtain ⟨vm', h1, h2⟩ := h; exact ⟨vm', h1, hk _ _ _ h2⟩
  | err g w => exact h
  | over => exact h
  | time => exact h

theorem Sim.post {vm : Vm σ} {r : R σ α} {Q Post : α → St σ → Vm σ → Prop} (h : Sim P vm r Q)
    (hk : ∀ a s vm', Q a s vm' → ∃ vm'', Steps P vm' vm'' ∧ Post a s vm'') : Sim P vm r Post := by
  cases r with
  | ok a s => obtain ⟨vm', h1, h2⟩ := h; obtain ⟨vm'', h3, h4⟩ := hk _ _ _ h2; exact ⟨vm'', h1.trans h3, h4⟩
  | err g w => exact h
  | over => exact h
  | time => exact h

theorem Sim.ok {vm : Vm σ} {a : α} {s : St σ} {Post : α → St σ → Vm σ → Prop} (h : Post a s vm) : Sim P vm (.ok a s) Post :=
  ⟨vm, .refl _, h⟩

theorem Sim.err {vm : Vm σ} {e : End σ} {g w} {Post : α → St σ → Vm σ → Prop} (h : step P vm = .abort e)
    (h1 : e.globals = g) (h2 : e.w = w) : Sim P vm (.err g w) Post :=
  ⟨vm, e, .refl _, h, h1, h2⟩

/-- The stack holds the pending operands. -/
def Dp (P : Prim σ) (stk : List Val) (d : Nat) : Prop := stk.length = d ∧ d ≤ P.cap

theorem Dp.push {stk : List Val} {d : Nat} (h : Dp P stk d) (hr : d < P.cap) (x : Val) : Dp P (x :: stk) (d + 1) :=
  ⟨by simp [h.1], hr⟩

theorem Sim.room {vm : Vm σ} {d : Nat} {stk : List Val} {r : R σ α} {Post : α → St σ → Vm σ → Prop} (hd : Dp P stk d)
    (hp : d = P.cap → vm.pend = true) (h : d < P.cap → Sim P vm r Post) : Sim P vm (needRoom P d r) Post := by
  unfold needRoom; split
  · exact h ‹_›
  · exact ⟨vm, .refl _, hp (by have := hd.2; omega)⟩

/-- Machine state. -/
def st (c : Ctx) (C : List UInt8) (ip : Nat) (acc : Val) (stk : List Val) (s : St σ) (ln : Nat) : Vm σ :=
  ⟨C, ip, acc, stk, emb c s.fr, ln, s.w, false⟩

/-- An instruction is at an offset. -/
def ItemAt (W : Nat) (C : List UInt8) (ip : Nat) (it : Item) : Prop :=
  ip < C.length ∧ fetch W C ip = (it.1, it.2, ip + it.1.size W)

/-- The same, or it is a return which was dropped because it came last. -/
def WAt (W : Nat) (C : List UInt8) (ip : Nat) (it : Item) : Prop := ItemAt W C ip it ∨ (it.1 = .ret ∧ C.length ≤ ip)

/-- A sequence of instructions is at an offset. -/
def CodeAt (W : Nat) (C : List UInt8) : Nat → List Item → Prop
  | _, [] => True
  | b, it :: l => WAt W C b it ∧ CodeAt W C (b + it.1.size W) l

@[simp] theorem codeAt_nil (W C b) : CodeAt W C b [] = True := rfl
@[simp] theorem codeAt_cons (W C b) (it : Item) (l) : CodeAt W C b (it :: l) = (WAt W C b it ∧ CodeAt W C (b + it.1.size W) l) := rfl

@[simp] theorem codeAt_append (W C b) (l m : List Item) : CodeAt W C b (l ++ m) ↔ CodeAt W C b l ∧ CodeAt W C (b + isz W l) m := by
  induction l generalizing b with
  | nil => simp
  | cons it l ih => simp [ih, and_assoc, Nat.add_assoc]

theorem WAt.item {W C ip} {it : Item} (h : WAt W C ip it) (hr : it.1 ≠ .ret) : ItemAt W C ip it := by
  rcases h with h | h
  · exact h
  · exact absurd h.1 hr

theorem fetch_push (W : Nat) (C : List UInt8) (ip : Nat) : (fetch W C ip).2.1 = decide (128 ≤ (C[ip]?.getD 0).toNat) := by
  unfold fetch
  simp only [apply_ite Prod.snd, apply_ite Prod.fst, ite_self]

/-- One instruction. -/
theorem step_item {c : Ctx} {C : List UInt8} {ip acc stk} {s : St σ} {ln} {it : Item} (h : ItemAt P.W C ip it) :
    step P (st c C ip acc stk s ln) =
      match exec1 P it.1 it.2 ip (st c C (ip + it.1.size P.W) acc stk s ln) with
      | .fault => .fault
      | .error s' => .abort s'.end
      | .ok s' push => if push then .run (s'.pushAcc P) else .run s' := by
  unfold step
  rw [if_pos (show (st c C ip acc stk s ln).ip < (st c C ip acc stk s ln).code.length from h.1)]
  have : fetch P.W (st c C ip acc stk s ln).code (st c C ip acc stk s ln).ip = _ := h.2
  simp only [this]
  have e : ({ st c C ip acc stk s ln with ip := ip + it.1.size P.W } : Vm σ) = st c C (ip + it.1.size P.W) acc stk s ln := rfl
  simp only [e]
  have e2 : (st c C ip acc stk s ln).ip = ip := rfl
  simp only [e2]
  cases exec1 P it.1 it.2 ip (st c C (ip + it.1.size P.W) acc stk s ln) <;> simp [st]

/-- The stack after a conditional push. -/
def pushIf (p : Bool) (v : Val) (stk : List Val) : List Val := if p then v :: stk else stk

/-- Goal of an expression: value in the accumulator, pushed if `p`. -/
def PostE (P : Prim σ) (c : Ctx) (C : List UInt8) (ip : Nat) (p : Bool) (d : Nat) (stk : List Val) (s0 : St σ)
    (v : Val) (s : St σ) (vm : Vm σ) : Prop :=
  SameTop s0.fr s.fr ∧ ((p = true → d < P.cap) → ∃ ln, vm = st c C ip v (pushIf p v stk) s ln) ∧
    (p = true → d = P.cap → vm.pend = true ∧ vm.fr.globals = s.fr.globals ∧ vm.w = s.w)

/-- A push that finds the stack full. -/
theorem pushAcc_full {s : Vm σ} (h : s.stack.length = P.cap) :
    (s.pushAcc P).pend = true ∧ (s.pushAcc P).fr.globals = s.fr.globals ∧ (s.pushAcc P).w = s.w := by
  unfold Vm.pushAcc; rw [if_pos h]; exact ⟨rfl, rfl, rfl⟩

/-- Finishing an instruction that succeeds. -/
theorem sim_ok {c : Ctx} {C ip acc stk} {s s0 s1 : St σ} {ln ln1} {it : Item} {p d v ip1 stk0}
    (h : ItemAt P.W C ip it) (hd : Dp P stk d)
    (he : exec1 P it.1 it.2 ip (st c C (ip + it.1.size P.W) acc stk0 s ln) = .ok (st c C ip1 v stk s1 ln1) p)
    (ht : SameTop s0.fr s1.fr) :
    Sim P (st c C ip acc stk0 s ln) (.ok v s1) (PostE P c C ip1 p d stk s0) := by
  cases p with
  | false =>
    refine ⟨st c C ip1 v stk s1 ln1, .one ?_, ht, fun _ => ⟨ln1, rfl⟩, by simp⟩
    rw [step_item h, he]; rfl
  | true =>
    refine ⟨(st c C ip1 v stk s1 ln1).pushAcc P, .one ?_, ht, fun hr => ⟨ln1, ?_⟩, fun _ hc => ?_⟩
    · rw [step_item h, he]; rfl
    · have := hr rfl
      have := hd.1
      unfold Vm.pushAcc
      rw [if_neg (show ¬ (st c C ip1 v stk s1 ln1).stack.length = P.cap by show ¬ stk.length = P.cap; omega)]
      rfl
    · exact pushAcc_full (by show stk.length = P.cap; rw [hd.1, hc])

/-- Finishing an instruction that calls an operation. -/
theorem sim_prim {c : Ctx} {C ip acc stk acc1} {s s0 s1 : St σ} {ln ln1} {it : Item} {p d ip1 stk0} {o : Option Val × σ}
    (h : ItemAt P.W C ip it) (hd : Dp P stk d)
    (he : exec1 P it.1 it.2 ip (st c C (ip + it.1.size P.W) acc stk0 s ln) = (st c C ip1 acc1 stk s1 ln1).res p o)
    (ht : SameTop s0.fr s1.fr) :
    Sim P (st c C ip acc stk0 s ln) (s1.prim o) (PostE P c C ip1 p d stk s0) := by
  rcases o with ⟨_ | v, w⟩
  · refine Sim.err (e := ((st c C ip1 acc1 stk s1 ln1 : Vm σ).end.1 |> fun g => ⟨g, w, ln1⟩)) ?_ rfl rfl
    rw [step_item h, he]; rfl
  · exact sim_ok (s1 := ⟨s1.fr, w⟩) h hd (by rw [he]; rfl) ht

/-- The `nop` after a jump target. -/
theorem sim_nop {c : Ctx} {C ip stk} {s0 s : St σ} {p d v vm} (h : ItemAt P.W C ip (.nop, p)) (hd : Dp P stk d)
    (hp : PostE P c C ip false d stk s0 v s vm) : ∃ vm', Steps P vm vm' ∧ PostE P c C (ip + 1) p d stk s0 v s vm' := by
  obtain ⟨ln, rfl⟩ := hp.2.1 (by simp)
  exact sim_ok (s := s) (s1 := s) (ln := ln) (ln1 := ln) h hd rfl hp.1

/-- A step that neither fails nor pushes. -/
theorem step_run {c : Ctx} {C ip acc stk0} {s : St σ} {ln} {it : Item} {vm1} (h : ItemAt P.W C ip it)
    (he : exec1 P it.1 it.2 ip (st c C (ip + it.1.size P.W) acc stk0 s ln) = .ok vm1 false) :
    Steps P (st c C ip acc stk0 s ln) vm1 := .one (by rw [step_item h, he]; rfl)

/-- A step that fails. -/
theorem step_err {c : Ctx} {C ip acc stk0} {s : St σ} {ln} {it : Item} {vm1} {g w} {Post : α → St σ → Vm σ → Prop}
    (h : ItemAt P.W C ip it)
    (he : exec1 P it.1 it.2 ip (st c C (ip + it.1.size P.W) acc stk0 s ln) = .error vm1)
    (hg : vm1.fr.globals = g) (hw : vm1.w = w) :
    Sim P (st c C ip acc stk0 s ln) (.err g w) Post := Sim.err (by rw [step_item h, he]) hg hw

end Snek.Lang
