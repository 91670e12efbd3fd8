import Verif.Model.DistSimple

/-! # Model of the Kato-Jones distribution: `pycircstat2/distributions.py` lines 81-86, 8080-8855

`np.hypot(a, b)` is `sqrt (a² + b²)`. The per-parameter cache of the series (lines 8647-8660) is a
plain recomputation here: its key is the full parameter tuple (C73 is about that cache). -/

set_option autoImplicit false

namespace Verif

open Real

/-- The shape parameters `(mu, gamma, rho, lam)`. -/
structure KJ where
  mu : ℝ
  gamma : ℝ
  rho : ℝ
  lam : ℝ

/-- `_argcheck(mu, gamma, rho, lam)`: distributions.py 8140-8162. -/
def kjArgcheck (s : KJ) : Prop :=
  (0 ≤ s.mu ∧ s.mu < 2 * π) ∧ (0 ≤ s.gamma ∧ s.gamma < 1) ∧ (0 ≤ s.rho ∧ s.rho < 1) ∧
  (0 ≤ s.lam ∧ s.lam < 2 * π) ∧
  (s.rho * cos s.lam - s.gamma) ^ 2 + (s.rho * sin s.lam) ^ 2 ≤ (1 - s.gamma) ^ 2 + 1 / 10 ^ 12

/-- `_pdf(x, mu, gamma, rho, lam)`: distributions.py 8164-8174. -/
noncomputable def kjPdf (x : ℝ) (s : KJ) : ℝ :=
  let delta := x - s.mu
  let denom := max (1 + s.rho ^ 2 - 2 * s.rho * cos (delta - s.lam)) (1 / 10 ^ 15)
  max ((1 + 2 * s.gamma * (cos delta - s.rho * cos s.lam) / denom) / (2 * π)) 0

open Classical in
/-- The loop that fixes the number of terms: distributions.py 8678-8682. -/
noncomputable def kjCount (gamma rho : ℝ) : ℕ → ℕ → ℕ
  | 0, P => P
  | k + 1, P =>
    if gamma / (max P 1 : ℕ) * rho ^ (P - 1) / max (1 / 10 ^ 12) (1 - rho) ≤ 1 / 10 ^ 12 then P
    else kjCount gamma rho k (P + 1)

/-- The number `P` of terms: distributions.py 8674-8683, 81-82. -/
noncomputable def kjTerms (gamma rho : ℝ) : ℕ :=
  if rho = 0 then 1 else min (kjCount gamma rho 5000 1) 5000

/-- The phase of term `p`: distributions.py 8688. -/
noncomputable def kjPhase (mu lam : ℝ) (p : ℕ) : ℝ := pymod (p * mu + (p - 1) * lam) (2 * π)

/-- The coefficient of term `p`: distributions.py 8685-8687. -/
noncomputable def kjCoeff (gamma rho : ℝ) (p : ℕ) : ℝ := gamma * rho ^ (p - 1) / p

open Classical in
/-- `_compute_series_terms` followed by `_evaluate_cdf_series` for one angle: distributions.py
8662-8716. -/
noncomputable def kjSeries (theta : ℝ) (s : KJ) : ℝ :=
  if s.gamma ≤ 1 / 10 ^ 12 ∨ s.rho ≤ 1 / 10 ^ 12 then theta / (2 * π)
  else
    let rho := clip s.rho 0 (1 - 1 / 10 ^ 12)
    let gamma := clip s.gamma 0 (1 - 1 / 10 ^ 12)
    let P := kjTerms gamma rho
    let anchor := -(1 / π) * ∑ i ∈ Finset.range P, kjCoeff gamma rho (i + 1) * sin (kjPhase s.mu s.lam (i + 1))
    let sum := ∑ i ∈ Finset.range P,
      kjCoeff gamma rho (i + 1) * sin (((i + 1 : ℕ) : ℝ) * theta - kjPhase s.mu s.lam (i + 1))
    theta / (2 * π) + 1 / π * sum - anchor

/-- The clipped parameters used by `_cdf` and `_ppf`: distributions.py 8210-8213, 8296-8299. -/
noncomputable def kjClean (s : KJ) : KJ :=
  ⟨pymod s.mu (2 * π), clip s.gamma 0 (1 - 1 / 10 ^ 12), clip s.rho 0 (1 - 1 / 10 ^ 12), pymod s.lam (2 * π)⟩

open Classical in
/-- `_cdf(x, mu, gamma, rho, lam)`: distributions.py 8205-8228. -/
noncomputable def kjCdf (x : ℝ) (s : KJ) : ℝ :=
  let c := kjClean s
  if isclose x (2 * π) rtolDefault (1 / 10 ^ 12) then 1
  else if isclose x 0 rtolDefault (1 / 10 ^ 12) then 0
  else clip (if c.gamma ≤ 1 / 10 ^ 12 then x / (2 * π) else pymod (kjSeries x c) 1) 0 1

/-- `cdf_single(theta)` inside `_ppf`: distributions.py 8319-8322. -/
noncomputable def kjCdfSingle (c : KJ) (theta : ℝ) : ℝ := clip (pymod (kjSeries theta c) 1) 0 1

/-- State of the quantile loop. -/
structure KJBr where
  theta : ℝ
  lo : ℝ
  hi : ℝ

open Classical in
/-- The bisection at distributions.py 8364-8370. -/
noncomputable def kjBisect (F : ℝ → ℝ) (q : ℝ) : ℕ → ℝ → ℝ → ℝ
  | 0, lo, hi => 1 / 2 * (lo + hi)
  | k + 1, lo, hi =>
    let mid := 1 / 2 * (lo + hi)
    if q < F mid then kjBisect F q k lo mid else kjBisect F q k mid hi

open Classical in
/-- The Newton loop with its `else` clause: distributions.py 8337-8370; `F` is `cdf_single`, `f` the
density. -/
noncomputable def kjNewton (F f : ℝ → ℝ) (q : ℝ) : ℕ → KJBr → ℝ
  | 0, b => kjBisect F q 30 b.lo b.hi
  | k + 1, b =>
    let residual := F b.theta - q
    if |residual| ≤ 1 / 10 ^ 12 ∧ b.hi - b.lo ≤ 1 / 10 ^ 10 then b.theta
    else
      let hi := if 0 < residual then min b.hi b.theta else b.hi
      let lo := if 0 < residual then b.lo else max b.lo b.theta
      if f b.theta ≤ 0 then kjNewton F f q k ⟨1 / 2 * (lo + hi), lo, hi⟩
      else
        let cand := b.theta - residual / f b.theta
        let theta := if cand ≤ lo ∨ hi ≤ cand then 1 / 2 * (lo + hi) else cand
        if hi - lo ≤ 1 / 10 ^ 10 then theta else kjNewton F f q k ⟨theta, lo, hi⟩

open Classical in
/-- `_ppf(q, mu, gamma, rho, lam)` for `0 < q < 1`: distributions.py 8295-8376. -/
noncomputable def kjPpf (q : ℝ) (s : KJ) : ℝ :=
  let c := kjClean s
  if c.gamma ≤ 1 / 10 ^ 12 then 2 * π * q
  else if isclose q 0 rtolDefault (1 / 10 ^ 12) then 0
  else if isclose q 1 rtolDefault (1 / 10 ^ 12) then 2 * π
  else pymod (kjNewton (kjCdfSingle c) (fun t => kjPdf t c) q 60 ⟨q * (2 * π), 0, 2 * π⟩) (2 * π)

/-- `katojones`: distributions.py 8080-8855. -/
noncomputable def katojones : Family KJ where
  argcheck := kjArgcheck
  pdf := kjPdf
  cdf := kjCdf
  ppf := kjPpf

/-- `trig_moment(p, mu, gamma, rho, lam)` for an integer `p`: distributions.py 8421-8432. -/
noncomputable def kjTrigMoment (k : ℤ) (s : KJ) : ℂ :=
  if k = 0 then 1
  else
    let a := k.natAbs
    let mag := if a = 1 then s.gamma else s.gamma * s.rho ^ (a - 1)
    let angle := a * s.mu + ((a : ℝ) - 1) * s.lam
    let value := mag * Complex.exp (Complex.I * angle)
    if k < 0 then (starRingEnd ℂ) value else value

/-- `_project_second_order(gamma, alpha2, beta2)`: distributions.py 8490-8507. -/
noncomputable def kjProject (gamma alpha2 beta2 : ℝ) : ℝ × ℝ :=
  let radius := gamma * (1 - gamma)
  let center := gamma * gamma
  let distance := sqrt ((alpha2 - center) ^ 2 + beta2 ^ 2)
  if radius ≤ 0 then (center, 0)
  else if distance ≤ radius then (alpha2, beta2)
  else if distance = 0 then (center + radius, 0)
  else (center + (alpha2 - center) * (radius / distance), beta2 * (radius / distance))

/-- `convert_alpha2_beta2(gamma, alpha2, beta2, verify)`: distributions.py 8509-8564. -/
noncomputable def kjToRhoLam (gamma alpha2 beta2 : ℝ) (verify : Bool) : Except PyErr (ℝ × ℝ) :=
  if ¬ (0 ≤ gamma ∧ gamma < 1) then .error .valueError
  else if verify = true ∧
      (gamma * (1 - gamma)) ^ 2 + 1 / 10 ^ 12 < (alpha2 - gamma * gamma) ^ 2 + beta2 ^ 2 then
    .error .valueError
  else
    let r2 := sqrt (alpha2 ^ 2 + beta2 ^ 2)
    if gamma ≤ 1 / 10 ^ 12 then
      if verify = true ∧ 1 / 10 ^ 12 < r2 then .error .valueError else .ok (0, 0)
    else .ok (clip (r2 / gamma) 0 (1 - 1 / 10 ^ 12),
      if r2 ≤ 1 / 10 ^ 12 then 0 else pymod (arctan2 beta2 alpha2) (2 * π))

/-- `convert_rho_lambda(gamma, rho, lam, verify)`: distributions.py 8566-8608. -/
noncomputable def kjToAlphaBeta (gamma rho lam : ℝ) (verify : Bool) : Except PyErr (ℝ × ℝ) :=
  if ¬ (0 ≤ gamma ∧ gamma < 1) then .error .valueError
  else if ¬ (0 ≤ rho ∧ rho < 1) then .error .valueError
  else if verify = true ∧
      (1 - gamma) ^ 2 + 1 / 10 ^ 12 < (rho * cos lam - gamma) ^ 2 + (rho * sin lam) ^ 2 then
    .error .valueError
  else .ok (gamma * rho * cos lam, gamma * rho * sin lam)

/-- `_aux_from_rho_lam(gamma, rho, lam)`: distributions.py 8610-8629. -/
noncomputable def kjAux (gamma rho lam : ℝ) : ℝ × ℝ :=
  let gamma := clip gamma 0 (1 - 1 / 10 ^ 12)
  let rho := clip rho 0 (1 - 1 / 10 ^ 12)
  let lam := pymod lam (2 * π)
  if 1 - 1 / 10 ^ 12 ≤ gamma then (0, 0)
  else
    let denom := max (1 / 10 ^ 12) (1 - gamma)
    let dc := rho * cos lam - gamma
    let ds := rho * sin lam
    let s := clip (sqrt (dc ^ 2 + ds ^ 2) / denom) 0 (1 - 1 / 10 ^ 9)
    (s, if s < 1 / 10 ^ 12 then 0 else pymod (arctan2 ds dc) (2 * π))

/-- `_rho_lam_from_aux(gamma, s, phi)`: distributions.py 8631-8645. -/
noncomputable def kjFromAux (gamma s phi : ℝ) : ℝ × ℝ :=
  let gamma := clip gamma 0 (1 - 1 / 10 ^ 9)
  let s := clip s 0 (1 - 1 / 10 ^ 9)
  let phi := pymod phi (2 * π)
  let rc := gamma + (1 - gamma) * s * cos phi
  let rs := (1 - gamma) * s * sin phi
  (clip (sqrt (rc ^ 2 + rs ^ 2)) 0 (1 - 1 / 10 ^ 9), pymod (arctan2 rs rc) (2 * π))

/-- `_fit_moments(data, weights)`: distributions.py 8434-8488; the first component is `nan` (`none`)
for data without a mean direction. With a `nan` mean all of `alpha2`, `beta2` and their projections are
`nan`; then `gamma < 1e-12` (up to rounding the resultant is below `1e-12` exactly when the mean is
`nan`) and neither is used. -/
noncomputable def kjFitMoments (data : List ℝ) (weights : Option (List ℝ)) :
    Except PyErr (Option ℝ × ℝ × ℝ × ℝ) := do
  let x := data.map wrap2pi
  if x.length = 0 then .error .valueError
  else
    let w ← fitWeights x.length weights
    match circMeanAndR x w with
    | none => .error .valueError
    | some (none, r1) => .ok (none, clip r1 0 (1 - 1 / 10 ^ 9), 0, 0)
    | some (some mu, r1) =>
      let a2 := (List.zipWith (fun xi wi => wi * cos (2 * angmod2pi (xi - mu))) x w).sum / w.sum
      let b2 := (List.zipWith (fun xi wi => wi * sin (2 * angmod2pi (xi - mu))) x w).sum / w.sum
      let gamma := clip r1 0 (1 - 1 / 10 ^ 9)
      let pr := kjProject gamma a2 b2
      if gamma < 1 / 10 ^ 12 then .ok (some (wrapDirection mu), gamma, 0, 0)
      else
        let rho := clip (sqrt (pr.1 ^ 2 + pr.2 ^ 2) / max gamma (1 / 10 ^ 12)) 0 (1 - 1 / 10 ^ 9)
        let lam := if rho < 1 / 10 ^ 12 then 0 else pymod (arctan2 pr.2 pr.1) (2 * π)
        .ok (some (wrapDirection mu), gamma, rho, lam)

open Classical in
/-- The objective of `_fit_mle`: distributions.py 8745-8757. -/
noncomputable def kjObjective (x w : List ℝ) (p : Fin 4 → ℝ) : ℝ :=
  let gamma := clip (p 1) (1 / 10 ^ 6) (1 - 1 / 10 ^ 9)
  let rl := kjFromAux gamma (clip (p 2) 0 (1 - 1 / 10 ^ 9)) (pymod (p 3) (2 * π))
  let s : KJ := ⟨wrapDirection (p 0), gamma, rl.1, rl.2⟩
  if ¬ kjArgcheck s then 10 ^ 12
  else if ∃ xi ∈ x, kjPdf xi s ≤ 0 then 10 ^ 12
  else -(List.zipWith (fun xi wi => wi * log (kjPdf xi s)) x w).sum

/-- The estimate built from the optimiser's answer: distributions.py 8791-8798. -/
noncomputable def kjEstimate (p : Fin 4 → ℝ) : KJ :=
  let gamma := clip (p 1) 0 (1 - 1 / 10 ^ 9)
  let rl := kjFromAux gamma (clip (p 2) 0 (1 - 1 / 10 ^ 9)) (pymod (p 3) (2 * π))
  ⟨wrapDirection (p 0), gamma, rl.1, rl.2⟩

/-- `_fit_mle(data, weights, initial, optimizer)`: distributions.py 8718-8811. `initial` has been
unpacked; a missing one is replaced by the moment estimates, whose mean must not be `nan` (a `nan`
start is not modelled and gives `none` here: the optimiser is called with it). `minimize` is scipy's
optimiser for the method named first. -/
noncomputable def kjFitMle (minimize : String → ((Fin 4 → ℝ) → ℝ) → (Fin 4 → ℝ) → MinResult 4)
    (data : List ℝ) (weights : Option (List ℝ)) (initial : KJ) (optimizer : String) : Except PyErr KJ := do
  let x := data.map wrap2pi
  if x.length = 0 then .error .valueError
  else
    let w ← fitWeights x.length weights
    let gamma0 := clip initial.gamma (1 / 10 ^ 6) (1 - 1 / 10 ^ 6)
    let rho1 := clip initial.rho 0 (1 - 1 / 10 ^ 6)
    let rho0 := if rho1 < 1 / 10 ^ 12 then 0 else rho1
    let lam0 := if rho1 < 1 / 10 ^ 12 then 0 else pymod initial.lam (2 * π)
    let aux := kjAux gamma0 rho0 lam0
    let x0 : Fin 4 → ℝ := ![wrapDirection initial.mu, gamma0, aux.1, aux.2]
    let result := minimize optimizer (kjObjective x w) x0
    let result' := if result.success = false ∧ optimizer ≠ "Powell" then
        (let fb := minimize "Powell" (kjObjective x w) x0
         if fb.success then fb else result)
      else result
    if result'.success = false then .error .runtimeError
    else .ok (kjEstimate result'.x)

end Verif
