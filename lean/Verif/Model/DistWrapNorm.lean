import Verif.Model.DistSimple
import Verif.Model.Solver
import Mathlib.Probability.Distributions.Gaussian.Real

/-! # Model of the wrapped normal distribution: `pycircstat2/distributions.py` lines 2247-2815

The parameters are scalars. `scipy.special.ndtr` is the distribution function of the standard normal distribution;
`ndtri`, its inverse, is a parameter (it only enters the starting value of the quantile search). -/

set_option autoImplicit false

namespace Verif

open Real MeasureTheory ProbabilityTheory

/-- `scipy.special.ndtr`. -/
noncomputable def ndtr (z : ℝ) : ℝ := (gaussianReal 0 1).real (Set.Iic z)

/-- `_pdf(x, mu, rho)`: distributions.py 2296-2301. -/
noncomputable def wnPdf (x mu rho : ℝ) : ℝ :=
  (1 + 2 * ((List.range 29).map fun i => rho ^ ((i + 1) ^ 2) * cos ((i + 1 : ℕ) * (x - mu))).sum) / (2 * π)

/-! ## The wrapped sums -/

/-- `ndtr((theta - mu + shift) / sigma) - ndtr((-mu + shift) / sigma)`: distributions.py 2343, 2353, 2358. -/
noncomputable def wnDelta (theta mu sigma shift : ℝ) : ℝ :=
  ndtr ((theta - mu + shift) * (1 / sigma)) - ndtr ((-mu + shift) * (1 / sigma))

/-- The loop of `_wrapnorm_cdf_pdf` for one angle, with the remaining number of passes, `k` and the running sum:
distributions.py 2346-2368. -/
noncomputable def wnLoop (theta mu sigma : ℝ) : ℕ → ℕ → ℝ → ℝ
  | 0, _, acc => acc
  | n + 1, k, acc =>
    let pos := wnDelta theta mu sigma (2 * π * k)
    let neg := wnDelta theta mu sigma (-(2 * π * k))
    let acc' := acc + (pos + neg)
    if 1 / 10 ^ 13 < max |pos| |neg| then wnLoop theta mu sigma n (k + 1) acc' else acc'

/-- The first result of `_wrapnorm_cdf_pdf(theta, mu, sigma)`: distributions.py 2329-2375. -/
noncomputable def wnWrapped (theta mu sigma : ℝ) : ℝ :=
  clip (wnLoop theta mu sigma 500 1 (wnDelta theta mu sigma 0)) 0 1

/-- `sigma` from `rho`: distributions.py 2403-2404, 2485-2486. -/
noncomputable def wnSigma (rho : ℝ) : ℝ := √(-2 * log (clip rho floatTiny (1 - 1 / 10 ^ 15)))

/-- `_cdf(x, mu, rho)`: distributions.py 2377-2414. -/
noncomputable def wnCdf (x mu rho : ℝ) : ℝ :=
  let w := wrap2pi x
  if isclose w (2 * π) rtolDefault atolDefault then 1
  else if rho ≤ 1 / 10 ^ 12 then w / (2 * π)
  else wnWrapped w mu (wnSigma rho)

/-! ## Quantiles -/

/-- The starting value: distributions.py 2492-2496. -/
noncomputable def wnGuess (ndtri : ℝ → ℝ) (q mu sigma : ℝ) : ℝ :=
  let theta := clip (2 * π * q) (1 / 10 ^ 12) (2 * π - 1 / 10 ^ 12)
  if sigma < 1 then
    1 / 2 * theta + 1 / 2 * pymod (mu + sigma * ndtri (clip q (1 / 10 ^ 12) (1 - 1 / 10 ^ 12))) (2 * π)
  else theta

open Classical in
/-- `_ppf(q, mu, rho)` for one probability of `(0, 1)`: distributions.py 2445-2554. `f theta mu sigma` is the density
that accompanies the wrapped sum (2344, 2354, 2359); the search itself is `wnSolve`; `np.nextafter(2π, 0)` is `2π - 2⁻⁵⁰`. -/
noncomputable def wnPpf (ndtri : ℝ → ℝ) (f : ℝ → ℝ → ℝ → ℝ) (q mu rho : ℝ) : ℝ :=
  let m := pymod mu (2 * π)
  let sigma := wnSigma rho
  let F := fun theta => wnWrapped theta m sigma
  if q ≤ 0 then 0
  else if 1 ≤ q then 2 * π
  else if rho ≤ 1 / 10 ^ 12 then 2 * π * q
  else if sigma ≤ 1 / 10 ^ 12 then pymod m (2 * π)
  else
    let sol := wnSolve F (fun theta => f theta m sigma) (fun y => clip y 0 (2 * π)) 6 40 [(q, wnGuess ndtri q m sigma)]
    let theta := clip (sol.headD 0) 0 (2 * π)
    if 2 * π - 1 / 10 ^ 12 ≤ theta then 2 * π - 1 / 2 ^ 50 else theta

/-- `wrapnorm`; `_argcheck` at distributions.py 2284-2294; shapes `(mu, rho)`. -/
noncomputable def wrapnorm (ndtri : ℝ → ℝ) (f : ℝ → ℝ → ℝ → ℝ) : Family (ℝ × ℝ) where
  argcheck s := (0 ≤ s.1 ∧ s.1 ≤ 2 * π) ∧ 0 < s.2 ∧ s.2 < 1
  pdf x s := wnPdf x s.1 s.2
  cdf x s := wnCdf x s.1 s.2
  ppf q s := wnPpf ndtri f q s.1 s.2

/-- `_rvs(mu, rho)` for one standard normal draw `z` and one uniform draw `u` from `[0, 1)`:
distributions.py 2592-2620. -/
noncomputable def wnRvs (z u mu rho : ℝ) : ℝ :=
  if clip rho floatTiny (1 - 1 / 10 ^ 15) ≤ 1 / 10 ^ 12 then 2 * π * u
  else if wnSigma rho < 1 / 10 ^ 12 then pymod mu (2 * π)
  else pymod (pymod mu (2 * π) + wnSigma rho * z) (2 * π)

/-! ## Estimation -/

/-- The exponent `-(x - mu + 2πk)²/(2σ²)`: distributions.py 2742-2743. -/
noncomputable def wnExponent (x mu sigma : ℝ) (k : ℤ) : ℝ := -1 / 2 * ((x - mu + 2 * π * k) / sigma) ^ 2

/-- `max_exp`, over the shifts from `-K` to `K`: distributions.py 2744. -/
noncomputable def wnMaxExp (x mu sigma : ℝ) (K : ℕ) : ℝ :=
  (Finset.Icc (-(K : ℤ)) K).sup' ⟨0, by simp⟩ (wnExponent x mu sigma)

/-- `sum_exp`: distributions.py 2745-2746. -/
noncomputable def wnSumExp (x mu sigma : ℝ) (K : ℕ) : ℝ :=
  ∑ k ∈ Finset.Icc (-(K : ℤ)) K, exp (wnExponent x mu sigma k - wnMaxExp x mu sigma K)

/-- `log_pdf`: distributions.py 2747-2748. -/
noncomputable def wnLogWindow (x mu sigma : ℝ) (K : ℕ) : ℝ :=
  wnMaxExp x mu sigma K + log (wnSumExp x mu sigma K) - (1 / 2 * log (2 * π) + log sigma)

/-- `tail_contrib <= tail_tol`: distributions.py 2750-2753. -/
def wnTailOk (xs : List ℝ) (mu sigma : ℝ) (K : ℕ) : Prop :=
  ∀ x ∈ xs, ∀ k ∈ [-(K : ℤ), (K : ℤ)],
    exp (wnExponent x mu sigma k - wnMaxExp x mu sigma K) / max (wnSumExp x mu sigma K) (1 / 10 ^ 300) ≤ 1 / 10 ^ 10

open Classical in
/-- The window with which the loop at distributions.py 2739-2758 returns, when it starts with window `K`. -/
noncomputable def wnWindow (xs : List ℝ) (mu sigma : ℝ) (K : ℕ) : ℕ :=
  if wnTailOk xs mu sigma K ∨ 256 ≤ K then K else wnWindow xs mu sigma (min 256 (K + 2))
termination_by 256 - K
decreasing_by
  rename_i h
  push Not at h
  omega

/-- `logpdf_series(mu, rho)` for the observation `x` of the data `xs`, when the loop starts with window `K`:
distributions.py 2713-2758. -/
noncomputable def wnLogpdf (xs : List ℝ) (K : ℕ) (mu rho x : ℝ) : ℝ :=
  let r := clip rho (1 / 10 ^ 12) (1 - 1 / 10 ^ 12)
  let sigma := √(-2 * log r)
  if r ≤ 1 / 10 ^ 8 then -log (2 * π)
  else if 10 < sigma then -log (2 * π)
  else wnLogWindow x mu sigma (wnWindow xs mu sigma K)

/-- The objective `nll`: distributions.py 2760-2765; `none` stands for `inf`. `win mu rho` is the window with which the
evaluation at these parameters starts: a value kept from earlier calls, or the default (2733-2737), which depends on the
parameters only. -/
noncomputable def wnNll (win : ℝ → ℝ → ℕ) (x w : List ℝ) (mu rho : ℝ) : Option ℝ :=
  if ¬ (0 ≤ rho ∧ rho < 1) then none
  else some (-(List.zipWith (fun xi wi => wi * wnLogpdf x (win mu rho) mu rho xi) x w).sum)

/-- The default window: distributions.py 2736. -/
noncomputable def wnDefaultWindow (sigma : ℝ) : ℕ := max 5 (⌈3 * sigma / (2 * π)⌉.toNat + 5)

/-- `wrapnorm.fit(data, weights, method)`: distributions.py 2690-2810; `method` stands for the lower-cased name. -/
noncomputable def wnFit (minimize : (ℝ × ℝ → Option ℝ) → ℝ × ℝ → MinResult 2) (win : ℝ → ℝ → ℕ)
    (data : List ℝ) (weights : Option (List ℝ)) (method : String) : Except PyErr (ℝ × ℝ) := do
  let x := data.map wrap2pi
  if x.length = 0 then .error .valueError
  else
    let w ← fitWeights x.length weights
    let muMom := (fitStart x w).1
    let rhoMom := clip (fitStart x w).2 (1 / 10 ^ 9) (1 - 1 / 10 ^ 9)
    let key := if method = "analytical" then "moments" else if method = "numerical" then "mle" else method
    if ¬ (key = "moments" ∨ key = "mle") then .error .valueError
    else if key = "moments" then .ok (wrapDirection muMom, rhoMom)
    else
      let result := minimize (fun p => wnNll win x w p.1 p.2) (muMom, rhoMom)
      if ¬ result.success then .error .runtimeError
      else .ok (wrapDirection (result.x 0), clip (result.x 1) (1 / 10 ^ 9) (1 - 1 / 10 ^ 9))

end Verif
