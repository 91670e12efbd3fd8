import Verif.Model.DistCauchy
import Verif.Model.Range
import Verif.Model.Bessel
import Verif.Model.Solver

/-! # Model of the von Mises distribution: `pycircstat2/distributions.py` lines 3262-3899

`scipy.special.i0`, `i1`, `iv` are the exact modified Bessel functions (`besselI`). In floating point
`i0` overflows for `kappa` above about 713, where the code falls back to numerical integration of the
density (3409-3410); here every real `kappa` has a finite `i0`, and that fallback appears only where
the series does not converge (3435-3436). It is the parameter `numCdf`. -/

set_option autoImplicit false

namespace Verif

open Real

/-- `_pdf(x, mu, kappa)`: distributions.py 3328-3329. -/
noncomputable def vmPdf (x mu kappa : ℝ) : ℝ :=
  exp (kappa * cos (x - mu)) / (2 * π * besselI 0 kappa)

/-- `_logpdf(x, mu, kappa)`: distributions.py 3355-3356. -/
noncomputable def vmLogpdf (x mu kappa : ℝ) : ℝ :=
  kappa * cos (x - mu) - log (2 * π * besselI 0 kappa)

/-- The coefficient of line 3422. -/
noncomputable def vmCoeff (kappa : ℝ) (n : ℕ) : ℝ := besselI n kappa / (besselI 0 kappa * n)

open Classical in
/-- The loop of lines 3421-3433 from the index `n` on, with the partial sums so far; `none` when
`fuel` rounds pass without convergence. For one angle (`max_term` over several angles changes nothing,
since the second condition implies the first). -/
noncomputable def vmLoop (kappa phi base : ℝ) : ℕ → ℕ → ℝ → ℝ → Option (ℝ × ℝ)
  | 0, _, _, _ => none
  | fuel + 1, n, s, sb =>
    let coeff := vmCoeff kappa n
    let term := coeff * sin (n * phi)
    let s' := s + term
    let sb' := sb + coeff * sin (n * base)
    if |term| < 1 / 10 ^ 12 ∧ |coeff| < 1 / 10 ^ 12 then some (s', sb')
    else vmLoop kappa phi base fuel (n + 1) s' sb'

open Classical in
/-- `_cdf(x, mu, kappa)`: distributions.py 3379-3452. -/
noncomputable def vmCdf (numCdf : ℝ → ℝ → ℝ → ℝ) (x mu kappa : ℝ) : ℝ :=
  let wrapped := wrap2pi x
  if kappa < 1 / 10 ^ 9 then
    if isclose wrapped (2 * π) rtolDefault atolDefault then 1 else wrapped / (2 * π)
  else
    let phi := wrapPi (wrapped - mu)
    let base := wrapPi (-mu)
    match vmLoop kappa phi base 500 1 0 0 with
    | none => numCdf x mu kappa
    | some (s, sb) =>
      let cdfRaw := 1 / 2 + phi / (2 * π) + 1 / π * s
      let baseVal := 1 / 2 + base / (2 * π) + 1 / π * sb
      let forward := clip (cdfRaw - baseVal) 0 1
      let backward := clip (baseVal - cdfRaw) 0 1
      let cdf := clip (if base ≤ phi then forward else 1 - backward) 0 1
      if isclose wrapped (2 * π) rtolDefault atolDefault then 1 else cdf

/-- The starting angle of the quantile solver: distributions.py 3519-3529; `ndtri` is the standard
normal quantile. -/
noncomputable def vmStart (ndtri : ℝ → ℝ) (q mu kappa : ℝ) : ℝ :=
  if kappa < 0.3 then pymod (2 * π * q) (2 * π)
  else if 5 < kappa then
    let guess := pymod (mu + ndtri q / sqrt kappa) (2 * π)
    let blend := if kappa < 20 then 0.5 else 0.8
    pymod (blend * guess + (1 - blend) * (2 * π * q)) (2 * π)
  else pymod (mu + 2 * π * (q - 1 / 2)) (2 * π)

/-- `vonmises`; `_argcheck` at distributions.py 3317-3326; shapes `(mu, kappa)`. The quantile method is
`vmPpf` below; here the field is not used. -/
noncomputable def vonmises (numCdf : ℝ → ℝ → ℝ → ℝ) : Family (ℝ × ℝ) where
  argcheck s := (0 ≤ s.1 ∧ s.1 ≤ 2 * π) ∧ 0 < s.2
  pdf x s := vmPdf x s.1 s.2
  cdf x s := vmCdf numCdf x s.1 s.2
  ppf _ _ := 0

/-- `self.cdf(theta, mu, kappa)` as called by the solver (accepted shapes). -/
noncomputable def vmPublicCdf (numCdf : ℝ → ℝ → ℝ → ℝ) (mu kappa theta : ℝ) : ℝ :=
  (distCdf (vonmises numCdf) theta (mu, kappa)).getD 0

/-- `_ppf(q, mu, kappa)` for an array of probabilities strictly between 0 and 1:
distributions.py 3487-3580. -/
noncomputable def vmPpf (ndtri : ℝ → ℝ) (numCdf : ℝ → ℝ → ℝ → ℝ) (qs : List ℝ) (mu kappa : ℝ) :
    List ℝ :=
  let muVal := pymod mu (2 * π)
  if kappa ≤ 1 / 10 ^ 9 then qs.map fun q => pymod (2 * π * q) (2 * π)
  else
    let qc := qs.map fun q => clip q (1 / 10 ^ 15) (1 - 1 / 10 ^ 15)
    (brSolve (vmPublicCdf numCdf muVal kappa) (fun t => vmPdf t muVal kappa)
      (fun x => pymod x (2 * π)) 6 30
      (qc.map fun q => (q, vmStart ndtri q muVal kappa))).map fun t => pymod t (2 * π)

/-- One trial of the rejection loop of `_rvs`: distributions.py 3626-3628, 3643-3652. `none` when the
candidate is rejected; `u1, u2, u3` are the uniform draws. -/
noncomputable def vmTrial (mu kappa u1 u2 u3 : ℝ) : Option ℝ :=
  let a := 1 + sqrt (1 + 4 * kappa ^ 2)
  let b := (a - sqrt (2 * a)) / (2 * kappa)
  let r := (1 + b ^ 2) / (2 * b)
  let z := cos (π * u1)
  let f := (1 + r * z) / (r + z)
  let c := kappa * (r - f)
  if u2 < c * (2 - c) ∨ u2 ≤ c * exp (1 - c) then
    some (pymod (pymod mu (2 * π) + (SignType.sign (u3 - 1 / 2) : ℝ) * arccos f) (2 * π))
  else none

/-- `_rvs` for `kappa ≤ 1e-9`: a uniform angle, distributions.py 3623-3624. Above: the first accepted
trial, distributions.py 3642-3652 (`u3` is drawn after acceptance; here each trial has its own). `none`
when none of the given trials is accepted. -/
noncomputable def vmRvs (mu kappa u0 : ℝ) : List (ℝ × ℝ × ℝ) → Option ℝ := fun trials =>
  if kappa ≤ 1 / 10 ^ 9 then some u0
  else trials.findSome? fun t => vmTrial mu kappa t.1 t.2.1 t.2.2

/-- `mean()`: distributions.py 3692-3702; `median()` 3704-3713 is the same. -/
def vmMean (mu _kappa : ℝ) : ℝ := mu

/-- `var()`: distributions.py 3715-3725. -/
noncomputable def vmVar (_mu kappa : ℝ) : ℝ := 1 - besselI 1 kappa / besselI 0 kappa

/-- `std()`: distributions.py 3727-3739. -/
noncomputable def vmStd (_mu kappa : ℝ) : ℝ := sqrt (-2 * log (besselI 1 kappa / besselI 0 kappa))

/-- `entropy()`: distributions.py 3741-3751. -/
noncomputable def vmEntropy (_mu kappa : ℝ) : ℝ :=
  -log (besselI 0 kappa) + kappa * besselI 1 kappa / besselI 0 kappa

/-- The objective `nll` of `fit`: distributions.py 3836-3845; `none` stands for `inf`. -/
noncomputable def vmNll (x w : List ℝ) (mu kappa : ℝ) : Option ℝ :=
  if ¬ 0 < kappa then none
  else some (-kappa * (List.zipWith (fun xi wi => wi * cos (xi - mu)) x w).sum
    + w.sum * (log (2 * π) + log (besselI 0 kappa)))

/-- The gradient `grad` of `fit`: distributions.py 3847-3856. -/
noncomputable def vmGrad (x w : List ℝ) (mu kappa : ℝ) : ℝ × ℝ :=
  (kappa * (List.zipWith (fun xi wi => wi * sin (xi - mu)) x w).sum,
   -(List.zipWith (fun xi wi => wi * cos (xi - mu)) x w).sum
    + w.sum * (besselI 1 kappa / besselI 0 kappa))

/-- `vonmises.fit(data, weights, method)`: distributions.py 3800-3899; `method` stands for the
lower-cased name, `rnd` for Python's `round`. -/
noncomputable def vmFit
    (minimize : (ℝ → ℝ → Option ℝ) → (ℝ → ℝ → ℝ × ℝ) → ℝ × ℝ → MinResult 2) (rnd : ℝ → ℤ)
    (data : List ℝ) (weights : Option (List ℝ)) (method : String) : Except PyErr (ℝ × ℝ) := do
  let x := data.map wrap2pi
  if x.length = 0 then .error .valueError
  else
    let w ← fitWeights x.length weights
    let muMom := (fitStart x w).1
    let rMom := clip (fitStart x w).2 (1 / 10 ^ 12) (1 - 1 / 10 ^ 12)
    let nAdjust := (max 1 (rnd w.sum)).toNat
    let kappaMom := clip (circKappa rMom (some nAdjust)) (1 / 10 ^ 9) (10 ^ 6)
    let key := if method = "analytical" then "moments" else
      if method = "numerical" then "mle" else method
    if ¬ (key = "moments" ∨ key = "mle") then .error .valueError
    else if key = "moments" then .ok (wrapDirection muMom, kappaMom)
    else
      let result := minimize (vmNll x w) (vmGrad x w) (muMom, kappaMom)
      if ¬ result.success then .error .runtimeError
      else .ok (wrapDirection (result.x 0), clip (result.x 1) (1 / 10 ^ 9) (10 ^ 6))

end Verif
