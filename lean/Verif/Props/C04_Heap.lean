import Verif.Props.C10
import Verif.Props.C52
import Verif.Proofs.SliceCalc
/-!
# C04 on containers in memory: what a slice expression builds
-/
namespace Snek.Store
open Spec

variable {E : Env}

/-- An optional slice operand: absent, or a number denoting an integer in the range of offsets. -/
def Operand (E : Env) : Option Val → Option Int → Prop
  | Option.none, Option.none => True
  | some v, some k => ∃ u, v = .num u ∧ Denotes u k ∧ -(2 ^ (E.A.offBits - 1)) ≤ k ∧ k < 2 ^ (E.A.offBits - 1)
  | _, _ => False

theorem Operand.arg {v : Option Val} {k : Option Int} (h : Operand E v k) (d : Int) : sliceArg E d v = (k.getD d, false) := by
  match v, k, h with
  | Option.none, Option.none, _ => rfl
  | some v, some k, ⟨u, e, hu, h1, h2⟩ => subst e; simp only [sliceArg, soff_denotes hu h1 h2, Option.getD_some]

/-- Slicing a list or tuple: the elements a Python slice selects, in a new object; a slice of all of a tuple may be the tuple itself,
and an empty tuple may be the shared one. A zero stride is an error. Objects that existed are unchanged. -/
theorem C04_list_partial (hA : E.A.Valid) (s : S) (hs : Ok s) (i : Nat) (ty : LType) (hty : ty = .list ∨ ty = .tuple) (l : List Val)
    (hi : s.elems i = some (ty, l)) (hfit : Fits E l.length) (p q t : Option Val) (start stop stride : Option Int)
    (hp : Operand E p start) (hq : Operand E q stop) (ht : Operand E t stride)
    (hs1 : start ≠ some E.A.soffNone) (hs2 : stop ≠ some E.A.soffNone)
    (hoff : (l.length : Int) + (start.getD 0).natAbs + (stop.getD 0).natAbs + 4 < 2 ^ (E.A.offBits - 1))
    (hint : (l.length : Int) + (start.getD 0).natAbs + (stop.getD 0).natAbs + (stride.getD 1).natAbs + 4 < 2 ^ (E.A.intBits - 1)) :
    (stride = some 0 → slice E (.list i) p q t s = some (.list i, s.fail)) ∧
    (stride ≠ some 0 → MakesList s ty (Spec.slice l start stop (stride.getD 1)) (slice E (.list i) p q t s) ∨
      (ty = .tuple ∧ Spec.slice l start stop (stride.getD 1) = l ∧ slice E (.list i) p q t s = some (.list i, s))) := by
  obtain ⟨o, ho, o1, o2, o3⟩ := elems_obj hs hi
  obtain ⟨l1, l2, -⟩ := hs.1 _ o ho
  have hd : o.type ≠ .dict := by rw [o1]; rcases hty with rfl | rfl <;> decide
  have hlen : len s (.list i) = some l.length := by simp only [len, ho, Option.bind_eq_bind, Option.bind_some, Option.pure_def, if_neg hd, o3]
  have hx : slice E (.list i) p q t s = if stride.getD 1 = 0 then some (.list i, s.fail) else
      (sliceCalc E.A l.length (start.getD E.A.soffNone) (stop.getD E.A.soffNone) (stride.getD 1)).bind fun c => listSlice E s i c := by
    simp only [slice, hp.arg, hq.arg, ht.arg, Option.bind_eq_bind, Option.pure_def, Bool.or_self, Bool.false_eq_true, if_false, hlen, Option.bind_some]
  have hs0 : stride = some 0 ↔ stride.getD 1 = 0 := by cases stride <;> simp
  rw [hs0, hx]
  refine ⟨fun h => if_pos h, fun h => ?_⟩
  rw [Ne, hs0] at h
  rw [if_neg h]
  have hPn : (2 : Int) ^ E.A.offBits = ((2 ^ E.A.offBits : Nat) : Int) := by push_cast; rfl
  have hP := pow_split hA
  obtain ⟨c, c1, c2, c3, c4, c5⟩ := slice_run E.A hA l l.length (Nat.le_refl _) (by omega) start stop (stride.getD 1) h hs1 hs2 hoff hint
  rw [List.take_length] at c3 c4 c5
  have c3' : sliceLoop E.A o.data c.count c.pos c.stride = some (Spec.slice l start stop (stride.getD 1)) := by
    rw [← o2] at c3; rw [← o2]; exact sliceLoop_take c3
  rw [c1, Option.bind_some]
  generalize Spec.slice l start stop (stride.getD 1) = r at *
  simp only [listSlice, ho, Option.bind_eq_bind, Option.bind_some, Option.pure_def, o1, c3']
  by_cases hid : (ty.readonly && c.identity) = true
  · rw [if_pos hid]
    simp only [Bool.and_eq_true] at hid
    have : ty = .tuple := by
      rcases hty with rfl | rfl
      · cases hid.1
      · rfl
    exact .inr ⟨this, c5 hid.2, rfl⟩
  · rw [if_neg hid]
    left
    have e : (if ty.readonly = true then LType.tuple else LType.list) = ty := by rcases hty with rfl | rfl <;> rfl
    rw [e]
    obtain ⟨m, s1, h1, ⟨rfl, h2, h3⟩ | ⟨k, x, rfl, N, h2, h3, h4⟩⟩ := make_new (t := ty) hs (hfit.mono c2) (fun hh => absurd (o1.trans hh) hd)
    · simp only [h1, Option.bind_some]
      exact ⟨_, _, rfl, h2.pre, .inl ⟨rfl, h3, make_short h1⟩⟩
    · simp only [h1, Option.bind_some]
      have fin : ∀ {s2 x2}, New s s2 k x2 → x2.type = ty → x2.data.take x2.size = r → MakesList s ty r (some (Val.list k, s2)) := by
        intro s2 x2 N2 a1 a2
        obtain ⟨b1, b2, b3⟩ := N2.builds a1 a2
        refine ⟨_, _, rfl, b1.pre, .inr ?_⟩
        rcases b3 with ⟨b3, -⟩ | ⟨k', b3, b4, b5, b6⟩
        · cases b3
        · cases b3; exact ⟨k, rfl, b4, b5, b6.imp (fun h => by omega) (fun h => ⟨h.1, h.2.1⟩)⟩
      split
      · rename_i hr
        exact fin N h2 (by rw [h3, ← c4, hr]; rfl)
      · have hxl : x.data.length = x.alloc ∧ x.size ≤ x.alloc := ⟨(N.ok.1 k x N.lst).2.1, (N.ok.1 k x N.lst).1⟩
        obtain ⟨s2, x2, p1, N2, p2, p3, p4⟩ := N.poke (p := 0) (src := r) (by omega)
        rw [p1, Option.bind_some]
        refine fin N2 (by rw [p2, h2]) ?_
        rw [p3, p4, h3, ← c4]
        simp

/-- Slicing a string, likewise. -/
theorem C04_string_partial (hA : E.A.Valid) (s : S) (i : Nat) (b : List UInt8)
    (hi : s.bytes i = some b) (p q t : Option Val) (start stop stride : Option Int)
    (hp : Operand E p start) (hq : Operand E q stop) (ht : Operand E t stride)
    (hs1 : start ≠ some E.A.soffNone) (hs2 : stop ≠ some E.A.soffNone)
    (hoff : (b.length : Int) + (start.getD 0).natAbs + (stop.getD 0).natAbs + 4 < 2 ^ (E.A.offBits - 1))
    (hint : (b.length : Int) + (start.getD 0).natAbs + (stop.getD 0).natAbs + (stride.getD 1).natAbs + 4 < 2 ^ (E.A.intBits - 1)) :
    (stride = some 0 → slice E (.str i) p q t s = some (.str i, s.fail)) ∧
    (stride ≠ some 0 → MakesStr s (Spec.slice b start stop (stride.getD 1)) (slice E (.str i) p q t s) ∨
      (Spec.slice b start stop (stride.getD 1) = b ∧ slice E (.str i) p q t s = some (.str i, s))) := by
  have hlen : len s (.str i) = some b.length := by simp [len, hi]
  have hx : slice E (.str i) p q t s = if stride.getD 1 = 0 then some (.str i, s.fail) else
      (sliceCalc E.A b.length (start.getD E.A.soffNone) (stop.getD E.A.soffNone) (stride.getD 1)).bind fun c => strSlice E s i c := by
    simp only [slice, hp.arg, hq.arg, ht.arg, Option.bind_eq_bind, Option.pure_def, Bool.or_self, Bool.false_eq_true, if_false, hlen, Option.bind_some]
  have hs0 : stride = some 0 ↔ stride.getD 1 = 0 := by cases stride <;> simp
  rw [hs0, hx]
  refine ⟨fun h => if_pos h, fun h => ?_⟩
  rw [Ne, hs0] at h
  rw [if_neg h]
  have hPn : (2 : Int) ^ E.A.offBits = ((2 ^ E.A.offBits : Nat) : Int) := by push_cast; rfl
  have hP := pow_split hA
  obtain ⟨c, c1, c2, c3, c4, c5⟩ := slice_run E.A hA (b ++ [0]) b.length (by simp) (by simp; omega) start stop (stride.getD 1) h hs1 hs2 hoff hint
  rw [List.take_append_of_le_length (Nat.le_refl _), List.take_length] at c3 c4 c5
  rw [c1, Option.bind_some]
  generalize Spec.slice b start stop (stride.getD 1) = r at *
  simp only [strSlice, hi, Option.bind_eq_bind, Option.bind_some, Option.pure_def, c3]
  by_cases hid : c.identity = true
  · rw [if_pos hid]; exact .inr ⟨c5 hid, rfl⟩
  · rw [if_neg hid]; left
    exact newStr_makes s (by omega)

/-! `[1, 2, 1][::-2]`, and the hypotheses. -/

example : ∃ s, runOps (demoEnv .posix) [.build .list [one, two, one]] demoStart = some s ∧
    Operand (demoEnv .posix) (some (.num 0xc0000000)) (some (-2)) ∧
    (slice (demoEnv .posix) (.list 0) Option.none Option.none (some (.num 0xc0000000)) s).map (fun x => (x.1, x.2.elems 1)) =
      some (.list 1, some (.list, [one, one])) ∧ Spec.slice [one, two, one] Option.none Option.none (-2) = [one, one] := by
  refine ⟨_, rfl, ⟨_, rfl, ⟨by decide +kernel, by decide +kernel⟩, by decide, by decide⟩, ?_, by decide⟩
  decide +kernel

end Snek.Store
