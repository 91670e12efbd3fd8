import Mathlib.MeasureTheory.Integral.IntervalIntegral.Basic
import Mathlib.Analysis.SpecialFunctions.Trigonometric.Basic

/-! # Specification vocabulary for distributions on the circle `[0, 2π]` -/

set_option autoImplicit false

namespace Verif.Spec

open Real MeasureTheory

/-- `f` is a probability density on `[0, 2π]`. -/
structure IsCircularDensity (f : ℝ → ℝ) : Prop where
  nonneg : ∀ x, 0 ≤ x → x ≤ 2 * π → 0 ≤ f x
  integrable : IntervalIntegrable f volume 0 (2 * π)
  mass : ∫ x in (0 : ℝ)..(2 * π), f x = 1

/-- `F` is the distribution function of the density `f`, counted from 0. -/
def IsCdfOf (F f : ℝ → ℝ) : Prop := ∀ x, 0 ≤ x → x ≤ 2 * π → F x = ∫ t in (0 : ℝ)..x, f t

/-- An angle of `[0, 2π]` that is not in the last `1e-14` before `2π` (the end `2π` itself is
included). Angles closer to `2π` are moved to `2π` by the library before any evaluation. -/
def RegularAngle (x : ℝ) : Prop := 0 ≤ x ∧ (x ≤ 2 * π - 1 / 10 ^ 14 ∨ x = 2 * π)

/-- The methods `pdf` and `cdf` of a distribution object (with `none` for `nan`) are those of the
probability density `f`. -/
structure IsDistribution (pdf cdf : ℝ → Option ℝ) (f : ℝ → ℝ) : Prop where
  density : IsCircularDensity f
  pdf_eq : ∀ x, RegularAngle x → pdf x = some (f x)
  cdf_eq : ∀ x, RegularAngle x → cdf x = some (∫ t in (0 : ℝ)..x, f t)

/-- The method `ppf` inverts the method `cdf` up to `tol`: every probability gets an angle in
`[0, 2π]` whose `cdf` is within `tol` of it; anything else gets `nan`. -/
def InvertsCdf (ppf cdf : ℝ → Option ℝ) (tol : ℝ) : Prop :=
  (∀ q, 0 ≤ q → q ≤ 1 → ∃ x c, ppf q = some x ∧ 0 ≤ x ∧ x ≤ 2 * π ∧ cdf x = some c ∧
    |c - q| ≤ tol) ∧
  ∀ q, q < 0 ∨ 1 < q → ppf q = none

end Verif.Spec
