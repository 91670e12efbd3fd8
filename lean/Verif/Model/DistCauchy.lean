import Verif.Model.DistSimple
import Mathlib.Analysis.SpecialFunctions.Complex.Arctan

/-! # Model of the wrapped Cauchy distribution: `pycircstat2/distributions.py` lines 2821-3256 -/

set_option autoImplicit false

namespace Verif

open Real

/-- `_pdf(x, mu, rho)`: distributions.py 2860-2861. -/
noncomputable def wcPdf (x mu rho : ℝ) : ℝ :=
  (1 - rho ^ 2) / (2 * π * (1 + rho ^ 2 - 2 * rho * cos (x - mu)))

/-- `_logpdf(x, mu, rho)`: distributions.py 2887-2888. -/
noncomputable def wcLogpdf (x mu rho : ℝ) : ℝ := log (max (wcPdf x mu rho) (1 / 10 ^ 16))

/-- The reduction `(y + π) % 2π - π` of lines 2931-2932, 3013. -/
noncomputable def wrapPi (y : ℝ) : ℝ := pymod (y + π) (2 * π) - π

/-- `_wrapcauchy_H(phi, A)`: distributions.py 2973-2978; the same expression is at 2934-2938. -/
noncomputable def wcH (phi A : ℝ) : ℝ :=
  1 / 2 + arctan2 (A * sin (1 / 2 * phi)) (cos (1 / 2 * phi)) / π

/-- `_cdf(x, mu, rho)`: distributions.py 2910-2950. -/
noncomputable def wcCdf (x mu rho : ℝ) : ℝ :=
  let rhoVal := clip rho floatTiny (1 - 1 / 10 ^ 15)
  let A := (1 + rhoVal) / (1 - rhoVal)
  let diff := wcH (wrapPi (wrap2pi x - mu)) A - wcH (wrapPi (-mu)) A
  let diff1 := if diff < -(1 / 10 ^ 12) then diff + 1 else diff
  let diff2 := if 1 < diff1 then diff1 - 1 else diff1
  if isclose (wrap2pi x) (2 * π) rtolDefault atolDefault then 1 else clip diff2 0 1

/-- `_ppf(q, mu, rho)` for `0 < q < 1` and accepted shapes: distributions.py 2980-3024. -/
noncomputable def wcPpf (q mu rho : ℝ) : ℝ :=
  let muVal := pymod mu (2 * π)
  if rho ≤ 1 / 10 ^ 15 then pymod (2 * π * q) (2 * π)
  else
    let A := (1 + rho) / (1 - rho)
    let s := pymod (wcH (wrapPi (-muVal)) A + q) 1
    let alpha := π * (clip s (1 / 10 ^ 15) (1 - 1 / 10 ^ 15) - 1 / 2)
    pymod (muVal + 2 * arctan (tan alpha / A)) (2 * π)

/-- `wrapcauchy`; `_argcheck` at distributions.py 2848-2858; shapes `(mu, rho)`. -/
noncomputable def wrapcauchy : Family (ℝ × ℝ) where
  argcheck s := (0 ≤ s.1 ∧ s.1 ≤ 2 * π) ∧ 0 ≤ s.2 ∧ s.2 < 1
  pdf x s := wcPdf x s.1 s.2
  cdf x s := wcCdf x s.1 s.2
  ppf q s := wcPpf q s.1 s.2

/-- The Möbius image of `z = e^{iu}`: distributions.py 3071-3078. -/
noncomputable def wcMobius (u mu rho : ℝ) : ℂ :=
  (Complex.exp (u * Complex.I) + rho * Complex.exp (mu * Complex.I))
    / (1 + rho * Complex.exp (-(mu * Complex.I)) * Complex.exp (u * Complex.I))

/-- `_rvs(mu, rho)` for one draw: distributions.py 3041-3097. `u` is the draw from `[-π, π)` used by
the Möbius sampler, `u0` the draw from `[0, 2π)` used for `rho` close to 0. The fallback for a
denominator below `1e-15` (lines 3081-3092) is not modelled: the denominator is at least `1 - rho`. -/
noncomputable def wcRvs (u u0 mu rho : ℝ) : ℝ :=
  if isclose rho 0 rtolDefault (1 / 10 ^ 15) then u0
  else if isclose rho 1 rtolDefault (1 / 10 ^ 15) then pymod mu (2 * π)
  else pymod (Complex.arg (wcMobius u mu rho)) (2 * π)

/-- The objective `nll` of `fit`: distributions.py 3184-3191; `none` stands for `inf`. -/
noncomputable def wcNll (x w : List ℝ) (mu rho : ℝ) : Option ℝ :=
  if ¬ (0 ≤ rho ∧ rho < 1) then none
  else some (-(List.zipWith (fun xi wi => wi * (log (1 - rho ^ 2) - log (2 * π)
    - log (max (1 + rho ^ 2 - 2 * rho * cos (xi - mu)) (1 / 10 ^ 15)))) x w).sum)

/-- The gradient `grad` of `fit`: distributions.py 3193-3205. -/
noncomputable def wcGrad (x w : List ℝ) (mu rho : ℝ) : ℝ × ℝ :=
  let denom := fun xi => max (1 + rho ^ 2 - 2 * rho * cos (xi - mu)) (1 / 10 ^ 15)
  (-2 * rho * (List.zipWith (fun xi wi => wi / denom xi * sin (xi - mu)) x w).sum,
   w.sum * (2 * rho / max (1 - rho ^ 2) (1 / 10 ^ 15))
    + (List.zipWith (fun xi wi => wi / denom xi * (2 * rho - 2 * cos (xi - mu))) x w).sum)

/-- `wrapcauchy.fit(data, weights, method)`: distributions.py 3160-3256; `method` stands for the
lower-cased name. -/
noncomputable def wcFit
    (minimize : (ℝ → ℝ → Option ℝ) → (ℝ → ℝ → ℝ × ℝ) → ℝ × ℝ → MinResult 2)
    (data : List ℝ) (weights : Option (List ℝ)) (method : String) : Except PyErr (ℝ × ℝ) := do
  let x := data.map wrap2pi
  if x.length = 0 then .error .valueError
  else
    let w ← fitWeights x.length weights
    let muMom := (fitStart x w).1
    let rhoMom := clip (fitStart x w).2 0 (1 - 1 / 10 ^ 12)
    let key := if method = "analytical" then "moments" else
      if method = "numerical" then "mle" else method
    if ¬ (key = "moments" ∨ key = "mle") then .error .valueError
    else if key = "moments" then .ok (wrapDirection muMom, rhoMom)
    else
      let result := minimize (wcNll x w) (wcGrad x w)
        (muMom, max (1 / 10 ^ 3) (min rhoMom (1 - 1 / 10 ^ 3)))
      if ¬ result.success then .error .runtimeError
      else .ok (wrapDirection (result.x 0), clip (result.x 1) (1 / 10 ^ 9) (1 - 1 / 10 ^ 9))

end Verif
