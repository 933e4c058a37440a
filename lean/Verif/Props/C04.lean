import Verif.Proofs.SliceCalc
/-!
# C04 Slices select exactly the Python slice positions
-/
namespace Snek

/-- **C04 (partial).** For every target, container and operands, the slice operator delivers exactly the elements a Python
slice selects, in that order; a zero stride is the only error.

Missing with respect to the full statement: bounds so large that the position arithmetic leaves the `snek_soffset_t` or C
`int` range, and an explicit bound equal to the reserved value `SNEK_SOFFSET_NONE`. `C04_violated_reserved_bound`,
`C04_violated_truncation` and `C04_violated_overflow` show that the code is wrong there. -/
theorem C04_slice_partial (A : Arch) (hA : A.Valid) (data : List α) (start stop stride : Option Int)
    (hs1 : start ≠ some A.soffNone) (hs2 : stop ≠ some A.soffNone)
    (hoff : (data.length : Int) + (start.getD 0).natAbs + (stop.getD 0).natAbs + 4 < 2 ^ (A.offBits - 1))
    (hint : (data.length : Int) + (start.getD 0).natAbs + (stop.getD 0).natAbs + (stride.getD 1).natAbs + 4 < 2 ^ (A.intBits - 1)) :
    snekSlice A data start stop stride =
      if stride.getD 1 = 0 then .stepError else .ok (Spec.slice data start stop (stride.getD 1)) := by
  unfold snekSlice
  generalize hd : stride.getD 1 = d at *
  by_cases hd0 : d = 0
  · simp [hd0]
  simp only [hd0, if_false]
  have hlo := hA.lo
  have hPo : (2 : Int) ^ A.offBits = 2 * 2 ^ (A.offBits - 1) := by
    obtain ⟨m, hm⟩ : ∃ m, A.offBits = m + 1 := ⟨A.offBits - 1, by omega⟩
    rw [hm, Nat.add_sub_cancel, Int.pow_succ]; omega
  obtain ⟨c, hc, -, h1, -, h2⟩ := slice_run A hA data data.length (Nat.le_refl _) (by omega) start stop d hd0 hs1 hs2 hoff hint
  rw [List.take_length] at h1 h2
  rw [hc]
  simp only
  split
  · rename_i hid; rw [h2 hid]
  · rw [h1]

/-- The hypotheses are met by ordinary programs: "hello, world"[-3:1:-2] on a 16-bit AVR. -/
example : snekSlice Arch.avr "hello, world".toList (some (-3)) (some 1) (some (-2)) = .ok "rw,l".toList := by
  decide
example : Spec.slice [10, 11, 12, 13, 14] (some (-1)) none (-2) = [14, 12, 10] := by decide

/-- On a board with 16-bit offsets an explicit start of 32764 is taken for "no start": the whole string comes back instead of
the empty string. -/
theorem C04_violated_reserved_bound :
    snekSlice Arch.arm [1, 2, 3] (some 32764) none none = .ok [1, 2, 3] ∧ Spec.slice [1, 2, 3] (some 32764) none 1 = [] := by
  decide

/-- On a board with 16-bit offsets and 32-bit `int`, `v[32767:-32768]` truncates the negative element count to a positive
one and reads outside the container. -/
theorem C04_violated_truncation :
    snekSlice Arch.arm [1, 2, 3] (some 32767) (some (-32768)) none = .undefinedBehaviour ∧
    Spec.slice [1, 2, 3] (some 32767) (some (-32768)) 1 = [] := by
  decide

/-- On AVR (16-bit `int`) the largest stride overflows. -/
theorem C04_violated_overflow :
    snekSlice Arch.avr [1, 2, 3] none none (some 32767) = .undefinedBehaviour ∧
    Spec.slice [1, 2, 3] none none 32767 = [1] := by
  decide

end Snek
