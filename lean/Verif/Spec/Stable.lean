import Mathlib.Analysis.SpecialFunctions.Pow.Real
import Mathlib.Analysis.SpecialFunctions.Trigonometric.Basic
import Mathlib.MeasureTheory.Integral.IntervalIntegral.Basic
import Mathlib.MeasureTheory.Measure.Lebesgue.Basic
import Mathlib.MeasureTheory.Measure.Prod

/-! # Stable laws, by their characteristic functions

The `S0` parametrisation of Nolan with index `alpha`, skewness `beta`, scale `gamma` and location `delta`, as used by
Pewsey (2008): at `t > 0` the characteristic function has length `stableLength` and argument `stablePhase`. Wrapping a
law round the circle keeps the values of its characteristic function at the whole numbers: they are the trigonometric
moments. -/

set_option autoImplicit false

namespace Verif.Spec

open Real MeasureTheory Set

noncomputable def stableLength (alpha gamma t : ℝ) : ℝ := exp (-((gamma * t) ^ alpha))

open Classical in
noncomputable def stablePhase (delta alpha beta gamma t : ℝ) : ℝ :=
  if alpha = 1 then delta * t - 2 / π * beta * (gamma * t) * log (gamma * t)
  else delta * t + beta * tan (π * alpha / 2) * ((gamma * t) ^ alpha - gamma * t)

/-- `g` has the `k`-th trigonometric moment of length `len` and direction `phase`. -/
def HasMoment (g : ℝ → ℝ) (k : ℕ) (len phase : ℝ) : Prop :=
  ∫ x in (0 : ℝ)..(2 * π), cos (k * x) * g x = len * cos phase ∧
    ∫ x in (0 : ℝ)..(2 * π), sin (k * x) * g x = len * sin phase

/-- The density of the wrapped Cauchy distribution with centre `mu` and mean resultant length `rho`. -/
noncomputable def wrappedCauchy (mu rho x : ℝ) : ℝ :=
  (1 - rho ^ 2) / (2 * π * (1 + rho ^ 2 - 2 * rho * cos (x - mu)))

/-- The average of `f` over `V` uniform on `(-π/2, π/2)` and an independent standard exponential `W`. -/
noncomputable def drawMean (f : ℝ → ℝ → ℝ) : ℝ :=
  1 / π * ∫ p in Ioo (-(π / 2)) (π / 2) ×ˢ Ioi (0 : ℝ), exp (-p.2) * f p.1 p.2

end Verif.Spec
