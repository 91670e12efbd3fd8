import Verif.Model.Descriptive
import Verif.Model.Utils
import Mathlib.LinearAlgebra.Matrix.NonsingularInverse
import Mathlib.Analysis.SpecialFunctions.Trigonometric.Arctan

/-!
# Model of `pycircstat2/regression.py`

Arrays of known shape are functions on `Fin`. Bessel functions, `scipy.linalg.lstsq`, `_safe_solve`,
`_safe_inverse` and the chi-square distribution function are parameters. Parsing of formulas, the checks
of array shapes and finiteness, and printing are not modelled.
-/

namespace Verif

open Real

set_option autoImplicit false

/-! ## Circular-linear regression -/

/-- The regression coefficients: `beta`, `alpha`, `gamma`. -/
structure CLParams (p : ℕ) where
  beta : Fin p → ℝ
  alpha : ℝ
  gamma : Fin p → ℝ

/-- What one pass of the loop computes: the mean direction, the concentration (a number for the model
"mean", one number per observation otherwise), the log-likelihood, and the new coefficients. -/
structure CLStep (P K : Type) where
  mu : ℝ
  kappa : K
  ll : ℝ
  next : P

/-- The result dictionary without standard errors: regression.py 316-323. -/
structure CLResult (P K : Type) where
  params : P
  mu : ℝ
  kappa : K
  ll : ℝ

/-- The loop of `CLRegression._fit`: regression.py 205-323. `step` is the body for the chosen model type;
it may raise, and `none` means that a number in it is not finite (all later results are then `nan`). `old`
is `log_likelihood_old`, `none` for the initial `-inf`; `last` holds the variables of the previous pass,
which the code reads after the loop: with no pass at all they are unbound. The first argument is the
number of passes left. -/
noncomputable def clLoop {P K : Type} (step : P → Except PyErr (Option (CLStep P K))) (tol : ℝ) :
    ℕ → P → Option ℝ → Option (CLStep P K) → Except PyErr (Option (CLResult P K))
  | 0, _, _, none => .error .unboundLocalError
  | 0, q, _, some s => .ok (some ⟨q, s.mu, s.kappa, s.ll⟩)
  | k + 1, q, old, _ =>
    (step q).bind fun r => match r with
      | none => .ok none
      | some s =>
        if ∃ o, old = some o ∧ |s.ll - o| < tol then .ok (some ⟨q, s.mu, s.kappa, s.ll⟩)
        else clLoop step tol k s.next (some s.ll) (some s)

/-- `CLRegression._fit` up to the standard errors. -/
noncomputable def clFit {P K : Type} (step : P → Except PyErr (Option (CLStep P K))) (tol : ℝ) (maxIter : ℕ)
    (start : P) : Except PyErr (Option (CLResult P K)) := clLoop step tol maxIter start none none

section Steps

variable {n p : ℕ} (theta : Fin n → ℝ) (X : Fin n → Fin p → ℝ)

/-- `X @ beta`. -/
noncomputable def linPred (beta : Fin p → ℝ) (i : Fin n) : ℝ := ∑ j, X i j * beta j

/-- `raw_deviation = theta - 2 * np.arctan(X @ beta)`: regression.py 217, 269. -/
noncomputable def rawDev (beta : Fin p → ℝ) (i : Fin n) : ℝ := theta i - 2 * arctan (linPred X beta i)

/-- `G = 2 * X / (1 + (X @ beta)**2)[:, None]`: regression.py 225-226, 276-277. -/
noncomputable def gMat (beta : Fin p → ℝ) (i : Fin n) (j : Fin p) : ℝ :=
  2 * X i j / (1 + linPred X beta i ^ 2)

/-- `G.T @ (w[:, None] * G)`. -/
noncomputable def gram (w : Fin n → ℝ) {q : ℕ} (G : Fin n → Fin q → ℝ) : Matrix (Fin q) (Fin q) ℝ :=
  Matrix.of fun j k => ∑ i, G i j * (w i * G i k)

/-- `1e-8 * np.eye(q)`. -/
noncomputable def ridge (q : ℕ) : Matrix (Fin q) (Fin q) ℝ := (1 / 10 ^ 8 : ℝ) • 1

/-- `X1 = np.column_stack((np.ones(n), X))`: regression.py 209. -/
def withOnes (i : Fin n) : Fin (p + 1) → ℝ := Fin.cons 1 (X i)

/-- `kappa = np.exp(alpha + X @ gamma)`: regression.py 242, 268. -/
noncomputable def kappaOf (alpha : ℝ) (gamma : Fin p → ℝ) (i : Fin n) : ℝ := exp (alpha + linPred X gamma i)

/-- `_A1_prime`: regression.py 201-203. -/
noncomputable def a1Prime (A1 : ℝ → ℝ) (kappa : ℝ) : ℝ := 1 - A1 kappa / kappa - A1 kappa ^ 2

/-- The body of the loop for `model_type == "mean"`: regression.py 215-238. -/
noncomputable def meanStep (A1 i0 : ℝ → ℝ) (solve : ∀ q : ℕ, Matrix (Fin q) (Fin q) ℝ → (Fin q → ℝ) → (Fin q → ℝ))
    (c : CLParams p) : Except PyErr (Option (CLStep (CLParams p) ℝ)) :=
  let raw := rawDev theta X c.beta
  let S := (∑ i, sin (raw i)) / n
  let C := (∑ i, cos (raw i)) / n
  let R := sqrt (S ^ 2 + C ^ 2)
  .ok ((a1inv R).map fun kappa =>
    let mu := arctan2 S C
    let G := gMat X c.beta
    let weight := kappa * A1 kappa
    let u := fun i => kappa * sin (raw i - mu)
    let XtX := gram (fun _ => 1) G
    let rhs := fun j => (∑ i, G i j * u i) + weight * (XtX.mulVec c.beta) j
    let mat := weight • XtX + ridge p
    let ll := -n * log (i0 kappa) + kappa * ∑ i, cos (raw i - mu)
    { mu := mu, kappa := kappa, ll := ll, next := { c with beta := solve p mat rhs } })

/-- The update of `alpha` and `gamma` shared by "kappa" and "mixed": regression.py 248-259, 286-297; `dev`
is `theta - mu` or `raw_deviation - mu`. -/
noncomputable def gammaUpdate (A1 : ℝ → ℝ) (solve : ∀ q : ℕ, Matrix (Fin q) (Fin q) ℝ → (Fin q → ℝ) → (Fin q → ℝ))
    (kappa dev : Fin n → ℝ) : Except PyErr (Fin (p + 1) → ℝ) :=
  if ∃ i, isclose (a1Prime A1 (kappa i)) 0 rtolDefault atolDefault then .error .valueError
  else
    let y := fun i => (cos (dev i) - A1 (kappa i)) / (a1Prime A1 (kappa i) * kappa i)
    let w := fun i => kappa i ^ 2 * a1Prime A1 (kappa i)
    .ok (solve (p + 1) (gram w (withOnes X) + ridge (p + 1)) fun j => ∑ i, withOnes X i j * (w i * y i))

/-- The body of the loop for `model_type == "kappa"`: regression.py 240-264. -/
noncomputable def kappaStep (A1 i0 : ℝ → ℝ) (solve : ∀ q : ℕ, Matrix (Fin q) (Fin q) ℝ → (Fin q → ℝ) → (Fin q → ℝ))
    (c : CLParams p) : Except PyErr (Option (CLStep (CLParams p) (Fin n → ℝ))) :=
  let kappa := kappaOf X c.alpha c.gamma
  let S := ∑ i, kappa i * sin (theta i)
  let C := ∑ i, kappa i * cos (theta i)
  let mu := arctan2 S C
  (gammaUpdate X A1 solve kappa fun i => theta i - mu).map fun update =>
    let ll := -(∑ i, log (i0 (kappa i))) + ∑ i, kappa i * cos (theta i - mu)
    some { mu := mu, kappa := kappa, ll := ll,
           next := { c with alpha := c.alpha + update 0, gamma := fun j => c.gamma j + update j.succ } }

/-- The body of the loop for `model_type == "mixed"`: regression.py 266-302. -/
noncomputable def mixedStep (A1 i0 : ℝ → ℝ) (solve : ∀ q : ℕ, Matrix (Fin q) (Fin q) ℝ → (Fin q → ℝ) → (Fin q → ℝ))
    (c : CLParams p) : Except PyErr (Option (CLStep (CLParams p) (Fin n → ℝ))) :=
  let kappa := kappaOf X c.alpha c.gamma
  let raw := rawDev theta X c.beta
  let S := ∑ i, kappa i * sin (raw i)
  let C := ∑ i, kappa i * cos (raw i)
  let mu := arctan2 S C
  let residuals := fun i => theta i - mu
  let G := gMat X c.beta
  let w := fun i => kappa i * A1 (kappa i)
  let betaNew := solve p (gram w G + ridge p) fun j => ∑ i, G i j * (w i * sin (residuals i))
  (gammaUpdate X A1 solve kappa fun i => raw i - mu).map fun update =>
    let ll := -(∑ i, log (i0 (kappa i))) + ∑ i, kappa i * cos (raw i - mu)
    some { mu := mu, kappa := kappa, ll := ll,
           next := { beta := betaNew, alpha := c.alpha + update 0, gamma := fun j => c.gamma j + update j.succ } }

end Steps

/-- `n_params` of `AIC` and `BIC`: regression.py 438-447, 460-469; `nb`, `ng` are the lengths of `beta`
and `gamma`. -/
def clNumParams (modelType : String) (nb ng : ℕ) : Except PyErr ℕ :=
  if modelType = "mean" then .ok nb
  else if modelType = "kappa" then .ok (1 + ng)
  else if modelType = "mixed" then .ok (1 + nb + ng)
  else .error .valueError

/-- `CLRegression.AIC`: regression.py 430-449. -/
noncomputable def clAIC (modelType : String) (nb ng : ℕ) (ll : ℝ) : Except PyErr ℝ :=
  (clNumParams modelType nb ng).map fun k : ℕ => -2 * ll + 2 * (k : ℝ)

/-- `CLRegression.BIC`: regression.py 451-471; `n` is the number of observations. -/
noncomputable def clBIC (modelType : String) (nb ng n : ℕ) (ll : ℝ) : Except PyErr ℝ :=
  (clNumParams modelType nb ng).map fun k : ℕ => -2 * ll + (k : ℝ) * log n

/-- `CLRegression.predict`: regression.py 473-505, for predictors of the right shape. -/
noncomputable def clPredict {m p : ℕ} (mu : ℝ) (beta : Fin p → ℝ) (Xnew : Fin m → Fin p → ℝ) (i : Fin m) : ℝ :=
  mu + 2 * arctan (linPred Xnew beta i)

/-! ## Circular-circular regression -/

/-- The columns of the design matrix: the constant, then the cosine terms, then the sine terms, each
sorted by feature and then by harmonic: regression.py 733-751. -/
abbrev CCTerm (m K : ℕ) := Unit ⊕ (Fin m × Fin K) ⊕ (Fin m × Fin K)

/-- The design matrix: regression.py 733-751; harmonic `k` counts from 0 here, from 1 in the code. -/
noncomputable def ccDesign {n m : ℕ} (K : ℕ) (x : Fin n → Fin m → ℝ) : Matrix (Fin n) (CCTerm m K) ℝ :=
  Matrix.of fun i c => match c with
    | .inl _ => 1
    | .inr (.inl (j, k)) => cos (((k : ℕ) + 1 : ℝ) * x i j)
    | .inr (.inr (j, k)) => sin (((k : ℕ) + 1 : ℝ) * x i j)

/-- `W`: the next harmonic of every feature: regression.py 766-776. -/
noncomputable def ccHigher {n m : ℕ} (K : ℕ) (x : Fin n → Fin m → ℝ) : Matrix (Fin n) (Fin m ⊕ Fin m) ℝ :=
  Matrix.of fun i c => match c with
    | .inl j => cos ((K + 1 : ℝ) * x i j)
    | .inr j => sin ((K + 1 : ℝ) * x i j)

/-- The three messages: regression.py 810-817. -/
inductive CCMessage where
  | none
  | notSignificant
  | significant
  deriving DecidableEq

/-- The choice of the message from the p-values (`none` when both are `nan`): regression.py 810-817. -/
noncomputable def ccMessage (level : ℝ) : Option (ℝ × ℝ) → CCMessage
  | none => .none
  | some (p1, p2) => if p1 > level ∧ p2 > level then .notSignificant else .significant

/-- The result dictionary: regression.py 819-831. `rho` is `none` only for empty data. -/
structure CCResult (n m K : ℕ) where
  rho : Option ℝ
  fitted : Fin n → ℝ
  residuals : Fin n → ℝ
  betaCos : CCTerm m K → ℝ
  betaSin : CCTerm m K → ℝ
  pvalues : Option (ℝ × ℝ)
  message : CCMessage

/-- The statistics `T1`, `T2`: regression.py 780-801; `r` are the residuals of the cosines or sines,
`invX`, `invW` are `_safe_inverse`. -/
noncomputable def ccT {n : ℕ} {C D : Type} [Fintype C] [Fintype D] (order : ℕ) (X : Matrix (Fin n) C ℝ)
    (W : Matrix (Fin n) D ℝ) (invX : Matrix C C ℝ → Matrix C C ℝ) (invW : Matrix D D ℝ → Matrix D D ℝ)
    (r : Fin n → ℝ) : ℝ :=
  let M := X * invX (X.transpose * X) * X.transpose
  let H := W.transpose * (1 - M) * W
  let N := W * invW H * W.transpose
  let adj : ℕ := max (n - (2 * order + 1)) 1
  adj * (r ⬝ᵥ N.mulVec r) / max (r ⬝ᵥ r) (1 / 10 ^ 12)

/-- `CCRegression(theta=theta, x=x, order=order, level=level)`: regression.py 696-831. -/
noncomputable def ccFit {n m : ℕ} (theta0 : Fin n → ℝ) (x0 : Fin n → Fin m → ℝ) (order : ℕ) (level : ℝ)
    (lstsq : Matrix (Fin n) (CCTerm m order) ℝ → (Fin n → ℝ) → (CCTerm m order → ℝ))
    (invX : Matrix (CCTerm m order) (CCTerm m order) ℝ → Matrix (CCTerm m order) (CCTerm m order) ℝ)
    (invW : Matrix (Fin m ⊕ Fin m) (Fin m ⊕ Fin m) ℝ → Matrix (Fin m ⊕ Fin m) (Fin m ⊕ Fin m) ℝ)
    (chi2 : ℝ → ℕ → ℝ) :
    Except PyErr (CCResult n m order) :=
  let theta := fun i => pymod (theta0 i) (2 * π)
  let x := fun i j => pymod (x0 i j) (2 * π)
  if order < 1 then .error .valueError
  else if ¬ (0 < level ∧ level < 1) then .error .valueError
  else
    let X := ccDesign order x
    let yc := fun i => cos (theta i)
    let ys := fun i => sin (theta i)
    let bc := lstsq X yc
    let bs := lstsq X ys
    let cf := X.mulVec bc
    let sf := X.mulVec bs
    let fitted := fun i => pymod (arctan2 (sf i) (cf i)) (2 * π)
    let residuals := fun i => Complex.arg (Complex.exp (((theta i - fitted i : ℝ) : ℂ) * Complex.I))
    let rho := (pydiv (∑ i, (cf i ^ 2 + sf i ^ 2)) n).map fun v => clip (sqrt v) 0 1
    let W := ccHigher order x
    let pv : Option (ℝ × ℝ) := if n * (m + m) = 0 then none else
      some (1 - chi2 (ccT order X W invX invW (yc - cf)) (m + m),
        1 - chi2 (ccT order X W invX invW (ys - sf)) (m + m))
    .ok { rho := rho, fitted := fitted, residuals := residuals, betaCos := bc, betaSin := bs, pvalues := pv,
          message := ccMessage level pv }

end Verif
