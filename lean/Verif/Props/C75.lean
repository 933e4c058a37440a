import Verif.Proofs.PtrRun
import Verif.Proofs.DemoStore
/-!
# C75 A collection in the middle of an operation does not change its result
-/
namespace Snek.Ptr
open Store (Val S Env demoEnv one two)

variable {E : Env} {K : Coll}

theorem start_sim (cap k : Nat) (mem : Nat → Nat → Bool) : Sim (fun _ => 0) (fun _ => 0) (V.start cap k mem) [] none2 (P.start cap k mem) := by
  have hR : ∀ i, ¬R (V.start cap k mem) [] none2 i := by
    intro i h
    induction h with
    | root hx ha =>
      simp only [V.roots, V.start, Store.S.start, List.append_nil, List.nil_append, Option.toList_none, List.map_nil, List.mem_cons, List.mem_replicate] at hx
      rcases hx with rfl | ⟨-, rfl⟩ <;> cases ha
    | elem _ _ _ _ _ _ ih => exact ih
  refine ⟨rfl, rfl, ?_, rfl, rfl, rfl, rfl, rfl, rfl, ?_, ?_, ?_, ?_⟩
  · simp only [P.start, V.start, List.map_replicate]; rfl
  · exact fun i h => (hR i h).elim
  all_goals (intro i _; intros; exact absurd ‹R _ [] none2 i› (hR i))

theorem start_inv (cap k : Nat) (mem : Nat → Nat → Bool) : VInv (V.start cap k mem) :=
  ⟨Store.start_ok mem, Store.start_rel True mem, by simp [V.start], trivial, fun x hx => by
    simp only [V.start, List.mem_replicate] at hx; rw [hx.2]; trivial⟩

theorem Sim.view {φ δ : Nat → Nat} {v : V} {loc : List Val} {p : P} (T : Sim φ δ v loc none2 p) (n : Nat) : p.view n = v.view n := by
  simp only [P.view, V.view, T.abort, T.acc, T.stack, T.ext, List.map_map]
  rw [look_sim T n ok_acc]
  congr 3
  · exact List.map_congr_left fun x hx => look_sim T n (ok_stk hx)
  · exact List.map_congr_left fun x hx => look_sim T n (ok_ext hx)

/-- Any number of operations from empty memory, with any collector that runs at every allocation, moves what is in use anywhere and
reuses the rest at once: all accesses are to the right blocks, and all values end up the same as where nothing ever moves.

Missing with respect to the full statement: `AllSafe` leaves out operations during which the code keeps a pointer that is not saved (see
`C75_violated_repeat`, `C75_violated_full` and `C75_violated_del`), `%` on strings, and results beyond the range of offsets. -/
theorem C75_results_partial (hK : K.Good) (hE : RealCmp E) (hA : E.A.Valid) (cap k : Nat) (mem : Nat → Nat → Bool) (ops : List Op)
    (hs : AllSafe E ops (V.start cap k mem)) :
    ∃ v p, vrun E ops (V.start cap k mem) = some v ∧ run K E ops (P.start cap k mem) = some p ∧ ∀ n, p.view n = v.view n := by
  obtain ⟨v, h1, φ, δ, p, h2, T⟩ := run_sim hK hE hA (start_sim cap k mem) (start_inv cap k mem) hs
  exact ⟨v, p, h1, h2, T.view⟩

/-- Two collectors give the same results. -/
theorem C75_collectors_partial (K' : Coll) (hK : K.Good) (hK' : K'.Good) (hE : RealCmp E) (hA : E.A.Valid) (cap k : Nat)
    (mem : Nat → Nat → Bool) (ops : List Op) (hs : AllSafe E ops (V.start cap k mem)) :
    ∃ p p', run K E ops (P.start cap k mem) = some p ∧ run K' E ops (P.start cap k mem) = some p' ∧ ∀ n, p.view n = p'.view n := by
  obtain ⟨v, p, h1, h2, h3⟩ := C75_results_partial hK hE hA cap k mem ops hs
  obtain ⟨v', p', h1', h2', h3'⟩ := C75_results_partial hK' hE hA cap k mem ops hs
  rw [h1] at h1'; cases h1'
  exact ⟨p, p', h2, h2', fun n => (h3 n).trans (h3' n).symm⟩

/-! ## A collector -/

/-- A block with its references moved up by one. -/
def shiftBlk : Blk → Blk
  | .str b => .str b
  | .head h => .head { h with data := h.data + 1 }
  | .words l => .words (l.map (ren (· + 1)))

/-- Moves every block up by one, and gives out the block at the bottom. -/
def shift : Coll where
  move p := { p with
    blk := fun a => match a with
      | 0 => none
      | a + 1 => (p.blk a).map shiftBlk
    stack := p.stack.map (ren (· + 1)), acc := ren (· + 1) p.acc, ext := p.ext.map (ren (· + 1)), empty := p.empty.map (· + 1) }
  fresh _ := 0

theorem shift_hd {p : P} {a : Nat} {h : Head} (e : (shift.move p).hd a = some h) :
    ∃ b g, a = b + 1 ∧ p.hd b = some g ∧ h = { g with data := g.data + 1 } := by
  rw [hd_blk] at e
  cases a with
  | zero => cases e
  | succ b =>
    have e' : (p.blk b).map shiftBlk = some (.head h) := e
    obtain ⟨x, hx, e'⟩ := Option.map_eq_some_iff.mp e'
    cases x with
    | head g => injection e' with e'; exact ⟨b, g, rfl, hd_blk.mpr hx, e'.symm⟩
    | str _ => cases e'
    | words _ => cases e'

/-- It is one of the collectors of the theorem. -/
theorem shift_good : shift.Good := by
  constructor
  · intro p
    refine ⟨(· + 1), rfl, rfl, rfl, rfl, ⟨rfl, rfl, rfl, rfl, rfl⟩, fun a b _ _ h => by simpa using h, ?_, ?_, ?_⟩
    · intro a b _ h; show (p.blk a).map shiftBlk = _; rw [h]; rfl
    · intro a h _ e
      refine ⟨h.data + 1, hd_blk.mpr ?_, fun _ => rfl⟩
      show (p.blk a).map shiftBlk = _; rw [hd_blk.mp e]; rfl
    · intro a h l _ _ ha e
      refine ⟨l.map (ren (· + 1)), ?_, by simp, fun m _ => by simp⟩
      show (p.blk h.data).map shiftBlk = _; rw [(wds_blk ha).mp e]; rfl
  · intro p
    have pos : ∀ x : Val, ∀ a, addr (ren (· + 1) x) = some a → a ≠ 0 := by
      intro x a h; cases x <;> simp [ren, addr] at h <;> omega
    have hR : ∀ a, (shift.move p).Reach a → a ≠ 0 := by
      intro a h
      induction h with
      | root hx ha =>
        have hx' : _ ∈ p.stack.map (ren (· + 1)) ++ ren (· + 1) p.acc :: p.ext.map (ren (· + 1)) ++ (p.empty.map (· + 1)).toList.map .list := hx
        simp only [List.mem_append, List.mem_map, List.mem_cons, Option.mem_toList, Option.mem_def, Option.map_eq_some_iff] at hx'
        rcases hx' with (⟨y, -, rfl⟩ | rfl | ⟨y, -, rfl⟩) | ⟨_, ⟨y, -, rfl⟩, rfl⟩
        · exact pos _ _ ha
        · exact pos _ _ ha
        · exact pos _ _ ha
        · injection ha with ha; omega
      | elem _ hh hw hm hx ha _ =>
        obtain ⟨b, g, -, -, rfl⟩ := shift_hd hh
        unfold P.wds at hw
        split at hw
        · injection hw with hw; subst hw; cases hx
        · have e : ∀ l, (shift.move p).blk (g.data + 1) = some (.words l) → ∃ l0 : List Val, l = l0.map (ren (· + 1)) := by
            intro l e
            have e' : (p.blk g.data).map shiftBlk = some (.words l) := e
            obtain ⟨x, _, e'⟩ := Option.map_eq_some_iff.mp e'
            cases x with
            | words l0 => injection e' with e'; exact ⟨l0, e'.symm⟩
            | str _ => cases e'
            | head _ => cases e'
          split at hw
          · rename_i l he
            injection hw with hw; subst hw
            obtain ⟨l0, rfl⟩ := e l he
            rw [List.getElem?_map] at hx
            obtain ⟨y, -, rfl⟩ := Option.map_eq_some_iff.mp hx
            exact pos _ _ ha
          · cases hw
    rintro (h | ⟨b, h, _, hh, _, he⟩)
    · exact hR 0 h rfl
    · obtain ⟨_, g, -, -, rfl⟩ := shift_hd hh
      exact absurd he (by simp [shift])

theorem demo_cmp (A : Arch) : RealCmp (demoEnv A) := ⟨fun _ _ _ => rfl, fun _ _ => rfl⟩

/-- `a = [1, 2]; b = a + a; d = {"k": b}; a[1] += a[0]; b[1:]; d[1] = a; del d["k"]; "k" in d` on the machine. -/
def demoOps : List Op :=
  [.const one, .push, .const two, .push, .build .list 2, .save 0,
   .load 0, .push, .load 0, .arith .plus, .save 1,
   .lit [107], .push, .load 1, .push, .build .dict 2, .save 2,
   .load 0, .push, .const one, .push, .const two, .aug .plus,
   .load 1, .push, .const one, .push, .slice true false false, .push,
   .load 2, .push, .const one, .push, .load 0, .store,
   .load 2, .push, .lit [107], .del,
   .lit [107], .push, .load 2, .isIn true]

/-- The hypotheses are met. -/
theorem demo_safe : AllSafe (demoEnv .avr) demoOps (V.start 10 3 fun _ _ => true) := by
  have fits : ∀ {n : Nat}, n < 1000 → Store.Fits (demoEnv .avr) n := by
    intro n h; show (n + n / 8 + 6) * 4 < 65536; omega
  -- [1, 2]
  refine .inr ⟨rfl, fun v h => ?_⟩; with_unfolding_all (cases h)
  refine .inr ⟨trivial, fun v h => ?_⟩; with_unfolding_all (cases h)
  refine .inr ⟨rfl, fun v h => ?_⟩; with_unfolding_all (cases h)
  refine .inr ⟨trivial, fun v h => ?_⟩; with_unfolding_all (cases h)
  refine .inr ⟨⟨by decide, by decide +kernel, fits (by decide), fun h => by cases h⟩, fun v h => ?_⟩; with_unfolding_all (cases h)
  refine .inr ⟨(by show (_ : Nat) < _; decide +kernel), fun v h => ?_⟩; with_unfolding_all (cases h)
  -- a + a
  refine .inr ⟨(by show (_ : Nat) < _; decide +kernel), fun v h => ?_⟩; with_unfolding_all (cases h)
  refine .inr ⟨trivial, fun v h => ?_⟩; with_unfolding_all (cases h)
  refine .inr ⟨(by show (_ : Nat) < _; decide +kernel), fun v h => ?_⟩; with_unfolding_all (cases h)
  refine .inr ⟨⟨_, _, rfl, by decide +kernel, ?_, trivial⟩, fun v h => ?_⟩
  · intro x y hx hy; cases hx; cases hy; exact fits (by decide)
  with_unfolding_all (cases h)
  refine .inr ⟨(by show (_ : Nat) < _; decide +kernel), fun v h => ?_⟩; with_unfolding_all (cases h)
  -- {"k": b}
  refine .inr ⟨(by show (_ : Nat) < _; decide +kernel), fun v h => ?_⟩; with_unfolding_all (cases h)
  refine .inr ⟨trivial, fun v h => ?_⟩; with_unfolding_all (cases h)
  refine .inr ⟨(by show (_ : Nat) < _; decide +kernel), fun v h => ?_⟩; with_unfolding_all (cases h)
  refine .inr ⟨trivial, fun v h => ?_⟩; with_unfolding_all (cases h)
  refine .inr ⟨⟨by decide, by decide +kernel, fits (by decide), fun h => by decide⟩, fun v h => ?_⟩; with_unfolding_all (cases h)
  refine .inr ⟨(by show (_ : Nat) < _; decide +kernel), fun v h => ?_⟩; with_unfolding_all (cases h)
  -- a[1] += 2
  refine .inr ⟨(by show (_ : Nat) < _; decide +kernel), fun v h => ?_⟩; with_unfolding_all (cases h)
  refine .inr ⟨trivial, fun v h => ?_⟩; with_unfolding_all (cases h)
  refine .inr ⟨rfl, fun v h => ?_⟩; with_unfolding_all (cases h)
  refine .inr ⟨trivial, fun v h => ?_⟩; with_unfolding_all (cases h)
  refine .inr ⟨rfl, fun v h => ?_⟩; with_unfolding_all (cases h)
  refine .inr ⟨⟨_, _, _, rfl, by decide +kernel, ⟨?_, ?_⟩, ?_, ?_⟩, fun v h => ?_⟩
  · intro o ho hd; cases ho; cases hd
  · intro n k s' o old h1 h2 h3; with_unfolding_all (cases h1); cases h2; cases h3; trivial
  · intro j k s' hj h1; cases hj; with_unfolding_all (cases h1); rfl
  · intro n k s' o old h1 h2 h3; with_unfolding_all (cases h1); cases h2; cases h3; trivial
  with_unfolding_all (cases h)
  -- b[1:]
  refine .inr ⟨(by show (_ : Nat) < _; decide +kernel), fun v h => ?_⟩; with_unfolding_all (cases h)
  refine .inr ⟨trivial, fun v h => ?_⟩; with_unfolding_all (cases h)
  refine .inr ⟨rfl, fun v h => ?_⟩; with_unfolding_all (cases h)
  refine .inr ⟨trivial, fun v h => ?_⟩; with_unfolding_all (cases h)
  refine .inr ⟨⟨_, _, _, _, _, _, _, _, rfl, rfl, rfl, rfl, by decide +kernel, ?_⟩, fun v h => ?_⟩
  · intro n hn; cases hn
    refine ⟨fun i hi => fits (by decide), ?_, ?_, ?_, ?_⟩
    all_goals decide +kernel
  with_unfolding_all (cases h)
  refine .inr ⟨trivial, fun v h => ?_⟩; with_unfolding_all (cases h)
  -- d[1] = a
  refine .inr ⟨(by show (_ : Nat) < _; decide +kernel), fun v h => ?_⟩; with_unfolding_all (cases h)
  refine .inr ⟨trivial, fun v h => ?_⟩; with_unfolding_all (cases h)
  refine .inr ⟨rfl, fun v h => ?_⟩; with_unfolding_all (cases h)
  refine .inr ⟨trivial, fun v h => ?_⟩; with_unfolding_all (cases h)
  refine .inr ⟨(by show (_ : Nat) < _; decide +kernel), fun v h => ?_⟩; with_unfolding_all (cases h)
  refine .inr ⟨⟨_, _, _, rfl, by decide +kernel, ?_⟩, fun v h => ?_⟩
  · intro o ho hd; cases ho; exact fits (by decide)
  with_unfolding_all (cases h)
  -- del d["k"]
  refine .inr ⟨(by show (_ : Nat) < _; decide +kernel), fun v h => ?_⟩; with_unfolding_all (cases h)
  refine .inr ⟨trivial, fun v h => ?_⟩; with_unfolding_all (cases h)
  refine .inr ⟨(by show (_ : Nat) < _; decide +kernel), fun v h => ?_⟩; with_unfolding_all (cases h)
  refine .inr ⟨⟨_, _, rfl, by decide +kernel, ?_, ?_⟩, fun v h => ?_⟩
  · intro o ho hd; cases ho; exact fits (by decide)
  · intro j k s' hj h1; cases hj; with_unfolding_all (cases h1); rfl
  with_unfolding_all (cases h)
  -- "k" in d
  refine .inr ⟨(by show (_ : Nat) < _; decide +kernel), fun v h => ?_⟩; with_unfolding_all (cases h)
  refine .inr ⟨trivial, fun v h => ?_⟩; with_unfolding_all (cases h)
  refine .inr ⟨(by show (_ : Nat) < _; decide +kernel), fun v h => ?_⟩; with_unfolding_all (cases h)
  refine .inr ⟨⟨_, _, rfl⟩, fun v h => ?_⟩; with_unfolding_all (cases h)
  trivial

/-- With the moving collector, `b[1:]` is `[2, 1, 2]`, `a` is `[1, 4]`, `b` is `[1, 2, 1, 2]`, `d` is `{1: a}`. -/
example : ∃ p, run shift (demoEnv .avr) demoOps (P.start 10 3 fun _ _ => true) = some p ∧
    p.view 3 = (false, .atom .zero, [.group .list [.atom two, .atom one, .atom two]],
      [.group .list [.atom one, .atom (.num 0x40800000)], .group .list [.atom one, .atom two, .atom one, .atom two],
       .group .dict [.atom one, .group .list [.atom one, .atom (.num 0x40800000)]]]) := by
  refine ⟨_, by with_unfolding_all rfl, ?_⟩
  with_unfolding_all rfl

/-- The same as where nothing moves. -/
example : ∃ v p, vrun (demoEnv .avr) demoOps (V.start 10 3 fun _ _ => true) = some v ∧
    run shift (demoEnv .avr) demoOps (P.start 10 3 fun _ _ => true) = some p ∧ ∀ n, p.view n = v.view n :=
  C75_results_partial shift_good (demo_cmp _) Arch.avr_valid 10 3 _ demoOps demo_safe

/-! ## Where it does change the result -/

/-- `"ab" * 2`: the operand is not saved while memory for the result is allocated, and its place may be reused: the result is empty. -/
theorem C75_violated_repeat :
    ∃ K : Coll, K.Good ∧ ∃ v p, vrun (demoEnv .avr) [.lit [97, 98], .push, .const two, .arith .times] (V.start 10 0 fun _ _ => true) = some v ∧
      run K (demoEnv .avr) [.lit [97, 98], .push, .const two, .arith .times] (P.start 10 0 fun _ _ => true) = some p ∧
      vlook v.s 1 v.acc = .text [97, 98, 97, 98] ∧ plook p 1 p.acc = .text [] :=
  ⟨shift, shift_good, _, _, rfl, rfl, by with_unfolding_all rfl, by with_unfolding_all rfl⟩

/-- `[1, [1] + [2]]` where the stack has room for the operands but not for saving them: what is popped in place of the saved list is a
number, which is taken for the address of a list. -/
theorem C75_violated_full :
    ∃ K : Coll, K.Good ∧
      (∃ v, vrun (demoEnv .avr) [.const one, .push, .const one, .push, .build .list 1, .push, .const two, .push, .build .list 1, .arith .plus]
        (V.start 3 0 fun _ _ => true) = some v ∧ v.s.abort = false) ∧
      run K (demoEnv .avr) [.const one, .push, .const one, .push, .build .list 1, .push, .const two, .push, .build .list 1, .arith .plus]
        (P.start 3 0 fun _ _ => true) = none :=
  ⟨shift, shift_good, ⟨_, rfl, rfl⟩, rfl⟩

/-- `d = {}; del d[1]`: the key is inserted, which moves the list, and deleted at the old place of the list. -/
theorem C75_violated_del :
    ∃ K : Coll, K.Good ∧
      (∃ v, vrun (demoEnv .avr) [.build .dict 0, .save 0, .load 0, .push, .const one, .del] (V.start 10 1 fun _ _ => true) = some v ∧
        v.s.abort = false) ∧
      run K (demoEnv .avr) [.build .dict 0, .save 0, .load 0, .push, .const one, .del] (P.start 10 1 fun _ _ => true) = none :=
  ⟨shift, shift_good, ⟨_, by with_unfolding_all rfl, rfl⟩, by with_unfolding_all rfl⟩

end Snek.Ptr
