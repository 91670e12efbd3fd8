import Mathlib.MeasureTheory.Constructions.Pi
import Mathlib.MeasureTheory.Measure.Lebesgue.Basic
import Mathlib.Analysis.SpecialFunctions.Trigonometric.Basic

/-!
# The uniform law on the circle
-/

set_option autoImplicit false

namespace Verif.Spec

open Real MeasureTheory

/-- The uniform law on the circle, on the angles `[0, 2π)`. -/
noncomputable def uniformLaw : Measure ℝ :=
  (ENNReal.ofReal (2 * π))⁻¹ • volume.restrict (Set.Ico 0 (2 * π))

instance : IsProbabilityMeasure uniformLaw := by
  constructor
  unfold uniformLaw
  rw [Measure.smul_apply, Measure.restrict_apply_univ, Real.volume_Ico, sub_zero, smul_eq_mul]
  exact ENNReal.inv_mul_cancel (by simpa using pi_pos) ENNReal.ofReal_ne_top

/-- The law of `n` independent uniform angles. -/
noncomputable def uniformSample (n : ℕ) : Measure (Fin n → ℝ) := Measure.pi fun _ => uniformLaw

end Verif.Spec
