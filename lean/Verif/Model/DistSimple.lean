import Verif.Model.Distn

/-! # Model of the closed-form distributions of `pycircstat2/distributions.py`:
circular uniform (lines 756-880), triangular (883-1267), cardioid (1270-1731) -/

set_option autoImplicit false

namespace Verif

open Real

/-! ## Circular uniform -/

/-- `circularuniform`: `_pdf` 776-777, `_cdf` 799-800, `_ppf` 822-823; no shape parameters. -/
noncomputable def circUniform : Family Unit where
  argcheck _ := True
  pdf _ _ := 1 / (2 * π)
  cdf x _ := x / (2 * π)
  ppf q _ := 2 * π * q

/-- `circularuniform.fit(data)`: distributions.py 868-877. -/
def circUniformFit (_data : List ℝ) : Except PyErr Unit := .error .notImplementedError

/-! ## Triangular -/

/-- `_pdf(x, rho)`: distributions.py 914-917. -/
noncomputable def triPdf (x rho : ℝ) : ℝ :=
  (4 - π ^ 2 * rho + 2 * π * rho * |π - x|) / 8 / π

/-- `_cdf(x, rho)`: distributions.py 942-973. -/
noncomputable def triCdf (x rho : ℝ) : ℝ :=
  if 2 * π ≤ x then 1
  else if π < x ∧ x < 2 * π then
    1 / 2 + ((4 - 3 * π ^ 2 * rho) * (x - π) + π * rho * (x ^ 2 - π ^ 2)) / (8 * π)
  else if 0 ≤ x ∧ x ≤ π then ((4 + π ^ 2 * rho) * x - π * rho * x ^ 2) / (8 * π)
  else 0

/-- The quantile before the final clip: distributions.py 1011-1050. -/
noncomputable def triPpfRaw (q rho : ℝ) : ℝ :=
  if isclose rho 0 rtolDefault (1 / 10 ^ 12) then q * (2 * π)
  else if q ≤ 1 / 2 then
    let b := -(4 + π ^ 2 * rho) / π
    (-b - sqrt (max (b ^ 2 - 4 * rho * (8 * q)) 0)) / (2 * rho)
  else
    let b := (4 - 3 * π ^ 2 * rho) / π
    (-b + sqrt (max (b ^ 2 - 4 * rho * (2 * π ^ 2 * rho - 8 * q)) 0)) / (2 * rho)

/-- `_ppf(q, rho)`: distributions.py 1004-1055. -/
noncomputable def triPpf (q rho : ℝ) : ℝ := clip (triPpfRaw q rho) 0 (2 * π - floatEps)

/-- `triangular`; `_argcheck` at distributions.py 910-912. -/
noncomputable def triangular : Family ℝ where
  argcheck rho := 0 ≤ rho ∧ rho ≤ 4 / π ^ 2
  pdf := triPdf
  cdf := triCdf
  ppf := triPpf

/-- `_rvs(rho)` for one uniform draw `u` from `[0, 1)`: distributions.py 1095-1101. -/
noncomputable def triRvs (u rho : ℝ) : ℝ := triPpf u rho

/-- `np.broadcast_to(w, (n,))` for a one-dimensional array; `none` stands for the `ValueError`. -/
def broadcastTo (n : ℕ) (w : List ℝ) : Option (List ℝ) :=
  if w.length = n then some w
  else match w with
    | [v] => some (List.replicate n v)
    | _ => none

/-- The checks shared by the `fit` methods on explicit weights (triangular 1198-1210, cardioid
1627-1637): negative weights, weights that cannot be broadcast to the data and a non-positive total are
rejected; `none` stands for `weights=None`. -/
noncomputable def fitWeights (n : ℕ) (weights : Option (List ℝ)) : Except PyErr (List ℝ) :=
  match weights with
  | none => if n = 0 then .error .valueError else .ok (List.replicate n 1)
  | some w =>
    if ∃ v ∈ w, v < 0 then .error .valueError
    else
      match broadcastTo n w with
      | none => .error .valueError
      | some w' => if w'.sum ≤ 0 then .error .valueError else .ok w'

/-- The score `Σ w c / (4 + ρ c)`: distributions.py 1232-1236, for data already wrapped. -/
noncomputable def triScore (x w : List ℝ) (rho : ℝ) : ℝ :=
  (List.zipWith (fun xi wi => let c := 2 * π * |π - xi| - π ^ 2; wi * (c / (4 + rho * c))) x w).sum

/-- The log-likelihood reported by `fit`: distributions.py 1222, 1258. -/
noncomputable def triLoglik (x w : List ℝ) (rho : ℝ) : ℝ :=
  (List.zipWith (fun xi wi => wi * log (4 - π ^ 2 * rho + 2 * π * rho * |π - xi|)) x w).sum
    - w.sum * log (8 * π)

/-- `triangular.fit(data, weights, method)`: distributions.py 1195-1264. `brentq` is scipy's root
finder applied to a function and a bracket. Any method other than `"moments"` takes the maximum
likelihood branch. -/
noncomputable def triFit (brentq : (ℝ → ℝ) → ℝ → ℝ → ℝ) (data : List ℝ)
    (weights : Option (List ℝ)) (method : String) : Except PyErr ℝ := do
  let x := data.map fun d => pymod d (2 * π)
  let w ← fitWeights x.length weights
  if method = "moments" then
    return clip ((List.zipWith (fun xi wi => wi / w.sum * cos xi) x w).sum) 0 (4 / π ^ 2)
  else
    let rhoHi := 4 / π ^ 2 - 1 / 10 ^ 12
    if triScore x w 0 ≤ 0 then return 0
    else if 0 ≤ triScore x w rhoHi then return rhoHi
    else return brentq (triScore x w) 0 rhoHi

/-! ## Cardioid -/

/-- `_pdf(x, mu, rho)`: distributions.py 1312-1313. -/
noncomputable def cardPdf (x mu rho : ℝ) : ℝ := (1 + 2 * rho * cos (x - mu)) / 2 / π

/-- `_cdf(x, mu, rho)`: distributions.py 1339-1340. -/
noncomputable def cardCdf (x mu rho : ℝ) : ℝ :=
  (x + 2 * rho * (sin (x - mu) + sin mu)) / (2 * π)

/-- One Newton/Halley step for one target (iteration number `it`): distributions.py 1396-1429. A
converged element is left alone, whether or not the vectorised loop has stopped. -/
noncomputable def cardNewtonStep (mu rho q : ℝ) (it : ℕ) (theta : ℝ) : ℝ :=
  let delta := (theta + 2 * rho * (sin (theta - mu) + sin mu)) / (2 * π) - q
  if |delta| ≤ 1 / 10 ^ 12 then pymod theta (2 * π)
  else
    let d1 := (1 + 2 * rho * cos (theta - mu)) / (2 * π)
    let d2 := (-2 * rho * sin (theta - mu)) / (2 * π)
    let stepNewton := if 1 / 10 ^ 14 < |d1| then delta / d1 else 0
    let step :=
      if it = 0 ∧ 1 / 4 < rho then
        let denom := 2 * d1 ^ 2 - delta * d2
        if 1 / 10 ^ 14 < |denom| then 2 * delta * d1 / denom else stepNewton
      else stepNewton
    pymod (theta - clip step (-π) π) (2 * π)

/-- The Newton loop: distributions.py 1386-1429 (`3` or `6` rounds). -/
noncomputable def cardNewton (mu rho q : ℝ) : ℝ :=
  (List.range (if 1 / 4 < rho then 6 else 3)).foldl (fun th it => cardNewtonStep mu rho q it th)
    (pymod (mu + 2 * π * (q - 1 / 2)) (2 * π))

/-- One halving of the bisection fallback: distributions.py 1444-1450. -/
noncomputable def cardBisectStep (mu rho q : ℝ) (b : ℝ × ℝ) : ℝ × ℝ :=
  let mid := (b.1 + b.2) / 2
  if (mid + 2 * rho * (sin (mid - mu) + sin mu)) / (2 * π) ≤ q then (mid, b.2) else (b.1, mid)

/-- The bisection fallback: distributions.py 1441-1451. -/
noncomputable def cardBisect (mu rho q : ℝ) : ℝ :=
  let b := (cardBisectStep mu rho q)^[32] (0, 2 * π)
  (b.1 + b.2) / 2

/-- `_solve_inverse_cdf(probabilities, mu_val, rho_val)` for one probability:
distributions.py 1366-1463. -/
noncomputable def cardSolve (q mu rho : ℝ) : ℝ :=
  if isclose rho 0 rtolDefault (1 / 10 ^ 15) then
    if isclose q 1 0 (1 / 10 ^ 12) then 2 * π else 2 * π * q
  else
    let theta := cardNewton mu rho q
    let delta := (theta + 2 * rho * (sin (theta - mu) + sin mu)) / (2 * π) - q
    let theta' := if 10 * (1 / 10 ^ 12) < |delta| then cardBisect mu rho q else theta
    if isclose q 1 0 (1 / 10 ^ 12) then 2 * π else pymod theta' (2 * π)

/-- `_ppf(q, mu, rho)`: distributions.py 1465-1491 for `0 < q < 1` and accepted shapes (the other
values of `q` are `nan` here and never reach this point through scipy). -/
noncomputable def cardPpf (q mu rho : ℝ) : ℝ := cardSolve q (pymod mu (2 * π)) rho

/-- `cardioid`; `_argcheck` at distributions.py 1300-1310; shapes `(mu, rho)`. -/
noncomputable def cardioid : Family (ℝ × ℝ) where
  argcheck s := (0 ≤ s.1 ∧ s.1 ≤ 2 * π) ∧ 0 ≤ s.2 ∧ s.2 ≤ 1 / 2
  pdf x s := cardPdf x s.1 s.2
  cdf x s := cardCdf x s.1 s.2
  ppf q s := cardPpf q s.1 s.2

/-- `_rvs(mu, rho)` for one uniform draw `u` from `[0, 1)` (`rng.uniform(0, 2π)` is `2π` times such a
draw): distributions.py 1526-1547. -/
noncomputable def cardRvs (u mu rho : ℝ) : Except PyErr ℝ :=
  if ¬ (0 ≤ rho ∧ rho ≤ 1 / 2) then .error .valueError
  else if isclose rho 0 rtolDefault (1 / 10 ^ 15) then .ok (2 * π * u)
  else .ok (cardSolve u (pymod mu (2 * π)) rho)

/-- The negative log-likelihood `_nll`: distributions.py 1646-1656; `none` stands for `inf`. -/
noncomputable def cardNll (x w : List ℝ) (mu rho : ℝ) : Option ℝ :=
  if ¬ (0 ≤ rho ∧ rho ≤ 1 / 2) then none
  else if ∃ xi ∈ x, 1 + 2 * rho * cos (xi - mu) ≤ 0 then none
  else some (-(List.zipWith (fun xi wi => wi * log (1 + 2 * rho * cos (xi - mu))) x w).sum
    + w.sum * log (2 * π))

/-- The gradient `_grad`: distributions.py 1658-1669, where no denominator is bad. -/
noncomputable def cardGrad (x w : List ℝ) (mu rho : ℝ) : ℝ × ℝ :=
  if ∃ xi ∈ x, 1 + 2 * rho * cos (xi - mu) ≤ 0 then (0, 0)
  else
    (-2 * rho * (List.zipWith (fun xi wi =>
        wi / (1 + 2 * rho * cos (xi - mu)) * sin (xi - mu)) x w).sum,
     -2 * (List.zipWith (fun xi wi =>
        wi / (1 + 2 * rho * cos (xi - mu)) * cos (xi - mu)) x w).sum)

/-- Result of scipy's `minimize`: whether it succeeded, and the point reached. -/
structure MinResult (n : ℕ) where
  success : Bool
  x : Fin n → ℝ

/-- The starting values shared by the `fit` methods: the mean direction of the wrapped data (0 if it
is `nan`), reduced mod 2π, and the mean resultant length: e.g. cardioid 1640-1643. (The first case
needs a zero weight sum, which `fitWeights` has rejected.) -/
noncomputable def fitStart (x w : List ℝ) : ℝ × ℝ :=
  match circMeanAndR x w with
  | none => (0, 0)
  | some (mu, r) => (pymod (mu.getD 0) (2 * π), r)

/-- `cardioid.fit(data, weights, method)`: distributions.py 1622-1728. `minimize` is scipy's
optimiser, given objective, gradient and start; `method` stands for the lower-cased name. -/
noncomputable def cardFit
    (minimize : (ℝ → ℝ → Option ℝ) → (ℝ → ℝ → ℝ × ℝ) → ℝ × ℝ → MinResult 2)
    (data : List ℝ) (weights : Option (List ℝ)) (method : String) : Except PyErr (ℝ × ℝ) := do
  let x := data.map wrap2pi
  if x.length = 0 then .error .valueError
  else
    let w ← fitWeights x.length weights
    let muMom := (fitStart x w).1
    let rhoMom := clip (fitStart x w).2 0 (1 / 2)
    if ¬ (method = "mle" ∨ method = "moments") then .error .valueError
    else if method = "moments" then .ok (wrapDirection muMom, rhoMom)
    else if rhoMom ≤ 1 / 10 ^ 12 then .ok (wrapDirection muMom, 0)
    else
      let result := minimize (cardNll x w) (cardGrad x w) (muMom, rhoMom)
      if ¬ result.success then .error .runtimeError
      else .ok (wrapDirection (result.x 0), clip (result.x 1) 0 (1 / 2))

end Verif
