import Mathlib.Analysis.SpecialFunctions.Integrals.Basic

/-! # Modified Bessel functions

`scipy.special.i0`, `i1` and `iv(n, ·)` for integer order are described by Bessel's integral; that scipy
computes it is part of the trusted base. -/

set_option autoImplicit false

namespace Verif

open Real

/-- The modified Bessel function of the first kind of integer order `n`. -/
noncomputable def besselI (n : ℕ) (kappa : ℝ) : ℝ :=
  1 / π * ∫ t in (0 : ℝ)..π, exp (kappa * cos t) * cos (n * t)

end Verif
