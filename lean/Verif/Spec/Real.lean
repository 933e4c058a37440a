import Verif.Spec.Number
import Mathlib.Data.Real.Basic
/-! # Numbers as real numbers -/
namespace Spec

/-- The value of a finite number. -/
noncomputable def real (u : BitVec 32) : ℝ := (f32val u : ℝ) / 2 ^ 149

end Spec
