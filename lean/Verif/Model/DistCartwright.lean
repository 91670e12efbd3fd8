import Verif.Model.DistSimple
import Mathlib.Probability.Distributions.Beta

/-! # Model of Cartwright's distribution: `pycircstat2/distributions.py` lines 1734-2244

The parameters are scalars. `scipy.special.betainc(a, b, ·)` is the distribution function of the beta
distribution, `scipy.special.beta` the beta function, `gammaln` and `digamma` the logarithm of the gamma function
and its derivative; `betaincinv` is a parameter. -/

set_option autoImplicit false

namespace Verif

open Real MeasureTheory ProbabilityTheory

/-- `scipy.special.betainc(a, b, x)`. -/
noncomputable def betainc (a b x : ℝ) : ℝ := (betaMeasure a b).real (Set.Iic x)

/-- `scipy.special.gammaln` for positive arguments. -/
noncomputable def gammaln (x : ℝ) : ℝ := log (Gamma x)

/-- `scipy.special.digamma` for positive arguments. -/
noncomputable def digamma (x : ℝ) : ℝ := deriv gammaln x

/-- `_pdf(x, mu, zeta)`: distributions.py 1785-1790. -/
noncomputable def cwPdf (x mu zeta : ℝ) : ℝ :=
  (2 : ℝ) ^ (-1 + 1 / zeta) * Gamma (1 + 1 / zeta) ^ 2 * (1 + cos (x - mu)) ^ (1 / zeta) / (π * Gamma (1 + 2 / zeta))

/-- `half_norm`: distributions.py 1862-1871, 1934-1942. -/
noncomputable def cwHalf (zeta : ℝ) : ℝ :=
  max ((2 : ℝ) ^ (-1 + 1 / zeta) * Gamma (1 + 1 / zeta) ^ 2 / (π * Gamma (1 + 2 / zeta)) * (2 : ℝ) ^ (1 / zeta)
    * beta (1 / 2) (1 / zeta + 1 / 2)) floatTiny

/-- `_cartwright_cumulative(phi, a, b, half_norm)` for one angle: distributions.py 1820-1841. -/
noncomputable def cwCumul (zeta phi : ℝ) : ℝ :=
  if phi ≤ π then cwHalf zeta * betainc (1 / 2) (1 / zeta + 1 / 2) (clip (sin (1 / 2 * phi) ^ 2) 0 1)
  else 1 - cwHalf zeta * betainc (1 / 2) (1 / zeta + 1 / 2) (clip (sin (1 / 2 * (2 * π - phi)) ^ 2) 0 1)

/-- `_cdf(x, mu, zeta)`: distributions.py 1843-1895. -/
noncomputable def cwCdf (x mu zeta : ℝ) : ℝ :=
  let w := wrap2pi x
  let start := pymod (-mu) (2 * π)
  let stop := pymod (w - mu) (2 * π)
  let Hs := cwCumul zeta start
  let He := cwCumul zeta stop
  let c := if start ≤ stop then clip (He - Hs) 0 1 else 1 - clip (Hs - He) 0 1
  let c := clip (if c < 0 then c + 1 else c) 0 1
  if isclose w (2 * π) rtolDefault atolDefault then 1 else c

/-- `_ppf(q, mu, zeta)` for one probability of `[0, 1]`: distributions.py 1920-1988. -/
noncomputable def cwPpf (binv : ℝ → ℝ → ℝ → ℝ) (q mu zeta : ℝ) : ℝ :=
  let m := pymod mu (2 * π)
  let start := pymod (-m) (2 * π)
  let s := pymod (cwCumul zeta start + q) 1
  let t := fun u => clip (binv (1 / 2) (1 / zeta + 1 / 2) (clip u 0 1)) 0 1
  let phi :=
    if s ≤ 1 / 2 then 2 * arcsin √(t (s / cwHalf zeta))
    else 2 * π - 2 * arcsin √(t ((1 - s) / cwHalf zeta))
  if isclose q 1 0 (1 / 10 ^ 12) then 2 * π
  else if isclose q 0 0 (1 / 10 ^ 12) then pymod (m + start) (2 * π)
  else pymod (m + phi) (2 * π)

/-- `cartwright`; `_argcheck` at distributions.py 1762-1767; shapes `(mu, zeta)`. -/
noncomputable def cartwright (binv : ℝ → ℝ → ℝ → ℝ) : Family (ℝ × ℝ) where
  argcheck s := (0 ≤ s.1 ∧ s.1 ≤ 2 * π) ∧ 0 < s.2
  pdf x s := cwPdf x s.1 s.2
  cdf x s := cwCdf x s.1 s.2
  ppf q s := cwPpf binv q s.1 s.2

/-- `_rvs(mu, zeta)` for one draw `t` of the beta distribution with parameters `1/2` and `1/zeta + 1/2` and one
uniform draw `u` from `[0, 1)`: distributions.py 2029-2060. -/
noncomputable def cwRvs (t u mu zeta : ℝ) : Except PyErr ℝ :=
  if zeta ≤ 0 then .error .valueError
  else
    let angle := 2 * arcsin (clip √t 0 1)
    let sign := if u < 1 / 2 then (-1 : ℝ) else 1
    .ok (pymod (pymod mu (2 * π) + sign * angle) (2 * π))

/-- `log_c(z)`: distributions.py 2161-2168. -/
noncomputable def cwLogC (z : ℝ) : ℝ :=
  (-1 + 1 / z) * log 2 + 2 * gammaln (1 + 1 / z) - log π - gammaln (1 + 2 * (1 / z))

/-- The objective `nll`: distributions.py 2170-2178; `none` stands for `inf`. -/
noncomputable def cwNll (x w : List ℝ) (mu zeta : ℝ) : Option ℝ :=
  if zeta ≤ 0 then none
  else some (-(w.sum * cwLogC zeta
    + 1 / zeta * (List.zipWith (fun xi wi => wi * log (max (1 + cos (xi - mu)) (1 / 10 ^ 15))) x w).sum))

/-- The gradient `grad`: distributions.py 2180-2193. -/
noncomputable def cwGrad (x w : List ℝ) (mu zeta : ℝ) : ℝ × ℝ :=
  let denom := fun xi => max (1 + cos (xi - mu)) (1 / 10 ^ 15)
  let inv := 1 / zeta
  let term := 2 * digamma (1 + 2 * inv) - (log 2 + 2 * digamma (1 + inv))
  (-(1 / zeta) * (List.zipWith (fun xi wi => wi * sin (xi - mu) / denom xi) x w).sum,
   ((List.zipWith (fun xi wi => wi * log (denom xi)) x w).sum - w.sum * term) / zeta ^ 2)

/-- `m_t` before its clipping: the mean of `sin²(δ/2)`: distributions.py 2151-2153. -/
noncomputable def cwMeanT (x w : List ℝ) (mu : ℝ) : ℝ :=
  (List.zipWith (fun xi wi => wi * sin (1 / 2 * (pymod (xi - mu + π) (2 * π) - π)) ^ 2) x w).sum / w.sum

/-- `zeta_mom`: distributions.py 2154-2159. -/
noncomputable def cwZetaMom (m : ℝ) : ℝ :=
  let mt := clip m 0 (1 / 2 - 1 / 10 ^ 12)
  if mt ≤ 1 / 10 ^ 12 then 1 / 10 ^ 6
  else clip (mt / max (1 / 10 ^ 12) (1 / 2 - mt)) (1 / 10 ^ 6) (10 ^ 6)

/-- `cartwright.fit(data, weights, method)`: distributions.py 2099-2245; `method` stands for the lower-cased name. -/
noncomputable def cwFit
    (minimize : (ℝ → ℝ → Option ℝ) → (ℝ → ℝ → ℝ × ℝ) → ℝ × ℝ → MinResult 2)
    (data : List ℝ) (weights : Option (List ℝ)) (method : String) : Except PyErr (ℝ × ℝ) := do
  let x := data.map wrap2pi
  if x.length = 0 then .error .valueError
  else
    let w ← fitWeights x.length weights
    let muMom := (fitStart x w).1
    let zetaMom := cwZetaMom (cwMeanT x w muMom)
    if ¬ (method = "mle" ∨ method = "moments") then .error .valueError
    else if method = "moments" then .ok (wrapDirection muMom, zetaMom)
    else
      let result := minimize (cwNll x w) (cwGrad x w) (muMom, clip zetaMom (1 / 10 ^ 3) (10 ^ 4))
      if ¬ result.success then .error .runtimeError
      else .ok (wrapDirection (result.x 0), clip (result.x 1) (1 / 10 ^ 6) (10 ^ 6))

/-! ## Overflow

The density once more, with the overflow of double-precision arithmetic: results beyond the largest finite float are
infinite. Rounding is still ignored. -/

/-- A double-precision result of a computation with non-negative numbers. -/
inductive FloatVal
  | fin (v : ℝ)
  | inf
  | nan

/-- The largest finite double. -/
noncomputable def floatMax : ℝ := (2 - 1 / 2 ^ 52) * 2 ^ 1023

/-- A non-negative real number as a double. -/
noncomputable def toFloat (v : ℝ) : FloatVal := if v ≤ floatMax then .fin v else .inf

/-- Product of non-negative doubles. -/
noncomputable def FloatVal.mul : FloatVal → FloatVal → FloatVal
  | .fin a, .fin b => toFloat (a * b)
  | .fin a, .inf => if a = 0 then .nan else .inf
  | .inf, .fin b => if b = 0 then .nan else .inf
  | .inf, .inf => .inf
  | _, _ => .nan

/-- Quotient of non-negative doubles. -/
noncomputable def FloatVal.div : FloatVal → FloatVal → FloatVal
  | .fin a, .fin b => if b = 0 then (if a = 0 then .nan else .inf) else toFloat (a / b)
  | .fin _, .inf => .fin 0
  | .inf, .fin _ => .inf
  | _, _ => .nan

/-- `_pdf(x, mu, zeta)` with overflow: distributions.py 1785-1790. -/
noncomputable def cwPdfFloat (x mu zeta : ℝ) : FloatVal :=
  let g := toFloat (Gamma (1 + 1 / zeta))
  (((toFloat ((2 : ℝ) ^ (-1 + 1 / zeta))).mul (g.mul g)).mul (toFloat ((1 + cos (x - mu)) ^ (1 / zeta)))).div
    ((toFloat π).mul (toFloat (Gamma (1 + 2 / zeta))))

end Verif
