import Mathlib.Probability.Distributions.Beta
import Mathlib.Analysis.SpecialFunctions.Trigonometric.Basic
import Mathlib.Analysis.SpecialFunctions.Pow.Real
import Mathlib.MeasureTheory.Integral.IntervalIntegral.Basic

/-! # Densities of distribution families, as the literature states them -/

set_option autoImplicit false

namespace Verif.Spec

open Real

/-- The Kato-Jones density. -/
noncomputable def kjDensity (mu gamma rho lam x : ℝ) : ℝ :=
  (1 + 2 * gamma * (cos (x - mu) - rho * cos lam) / (1 + rho ^ 2 - 2 * rho * cos (x - mu - lam))) / (2 * π)

/-- The Jones-Pewsey density up to its normalising constant, as a function of the angle from the centre;
`psi = 0` is the von Mises case. -/
noncomputable def jpShape (kappa psi phi : ℝ) : ℝ :=
  if psi = 0 then exp (kappa * cos phi)
  else (cosh (kappa * psi) + sinh (kappa * psi) * cos phi) ^ (1 / psi)

/-- The shape of the asymmetric Jones-Pewsey density: the Jones-Pewsey shape at the warped angle. -/
noncomputable def jpaShape (kappa psi nu phi : ℝ) : ℝ := jpShape kappa psi (phi + nu * cos phi)

/-- The asymmetric Jones-Pewsey density with direction parameter `xi`. -/
noncomputable def jpaDensity (xi kappa psi nu x : ℝ) : ℝ :=
  jpaShape kappa psi nu (x - xi) / ∫ t in (0 : ℝ)..(2 * π), jpaShape kappa psi nu (t - xi)

/-- The Legendre function of the first kind for `z ≥ 1`, by Laplace's integral. -/
noncomputable def legendreP (nu z : ℝ) : ℝ :=
  1 / π * ∫ t in (0 : ℝ)..π, (z + sqrt (z ^ 2 - 1) * cos t) ^ nu

/-- `lpmv nu z` is the Legendre function wherever it gives a number. -/
def LpmvExact (lpmv : ℝ → ℝ → Option ℝ) : Prop :=
  ∀ nu z v, 1 ≤ z → lpmv nu z = some v → v = legendreP nu z

/-- The flat-topped von Mises density up to its normalising constant, as a function of the angle from the
centre. -/
noncomputable def flatShape (kappa nu phi : ℝ) : ℝ := exp (kappa * cos (phi + nu * sin phi))

/-- The inverse Batschelet family, given by a curve with parameter `u` in `[-π, π]`: the angle from the location, … -/
noncomputable def invbatAngle (nu lmbd u : ℝ) : ℝ :=
  (u - (1 + lmbd) / 2 * sin u) - nu * (1 + cos (u - (1 + lmbd) / 2 * sin u))

/-- … and the density there, up to the normalising constant. -/
noncomputable def invbatShape (kappa lmbd u : ℝ) : ℝ := exp (kappa * cos (u - (1 - lmbd) / 2 * sin u))

/-- The normalising constant: the mass of the curve. -/
noncomputable def invbatMass (kappa lmbd : ℝ) : ℝ :=
  ∫ u in (-π)..π, invbatShape kappa lmbd u * (1 - (1 + lmbd) / 2 * cos u)

/-- Inverse Batschelet parameters away from the tolerances within which the library replaces them by special values
(`|nu| ≤ 1e-12` by 0, `lmbd` within `1.1e-5` of `±1` by `±1`, `kappa ≤ 1e-9` by the uniform distribution). -/
structure InvBatRegular (xi kappa nu lmbd : ℝ) : Prop where
  xi_mem : 0 ≤ xi ∧ xi ≤ 2 * π
  kappa_mem : 1 / 10 ^ 9 < kappa ∧ kappa ≤ 700
  nu_le : |nu| ≤ 1
  nu_regular : nu = 0 ∨ 1 / 10 ^ 12 < |nu|
  lmbd_le : |lmbd| ≤ 1
  lmbd_low : lmbd = -1 ∨ -1 + 11 / 10 ^ 6 < lmbd
  lmbd_high : lmbd = 1 ∨ lmbd < 1 - 11 / 10 ^ 6

/-- A root finder for the interval `[-π, π]` finds a zero of every continuous function that changes its sign. -/
def FindsRoots (solve : (ℝ → ℝ) → Option ℝ) : Prop :=
  ∀ f : ℝ → ℝ, Continuous f → f (-π) ≤ 0 → 0 ≤ f π → ∃ r, solve f = some r ∧ -π ≤ r ∧ r ≤ π ∧ f r = 0

/-- The density of Cartwright's distribution: proportional to `(1 + cos(x - mu))^(1/zeta)`. -/
noncomputable def cartwrightDensity (mu zeta x : ℝ) : ℝ :=
  (1 + cos (x - mu)) ^ (1 / zeta) / ∫ t in (0 : ℝ)..(2 * π), (1 + cos t) ^ (1 / zeta)

/-- `binv a b` inverts the distribution function of the beta distribution with parameters `a` and `b`. -/
def InvertsBeta (binv : ℝ → ℝ → ℝ → ℝ) (a b : ℝ) : Prop :=
  ∀ u, 0 ≤ u → u ≤ 1 → 0 ≤ binv a b u ∧ binv a b u ≤ 1 ∧
    (ProbabilityTheory.betaMeasure a b).real (Set.Iic (binv a b u)) = u

/-- Density of the wrapped normal distribution with centre `mu` and standard deviation `sigma`: the normal density summed
over all turns. -/
noncomputable def wrappedNormal (mu sigma x : ℝ) : ℝ :=
  ∑' k : ℤ, exp (-(x - mu + 2 * π * k) ^ 2 / (2 * sigma ^ 2)) / (sigma * √(2 * π))

end Verif.Spec
