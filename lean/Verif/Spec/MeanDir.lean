import Mathlib.Analysis.SpecialFunctions.Complex.Log
import Mathlib.Algebra.BigOperators.Fin

/-! # Specification vocabulary: mean direction of `n` angles -/

namespace Verif.Spec

open Real

set_option autoImplicit false

/-- `m` is the direction of the mean vector of the angles `a`, and that vector is longer than
`1e-8` (the library reports no mean direction for shorter ones). -/
def IsMeanDir {n : ℕ} (a : Fin n → ℝ) (m : ℝ) : Prop :=
  ∃ ρ : ℝ, 1 / 10 ^ 8 < ρ ∧
    (∑ i, Complex.exp ((a i : ℂ) * Complex.I)) / n = (ρ : ℂ) * Complex.exp ((m : ℂ) * Complex.I)

end Verif.Spec
