import Verif.Model.RegressionSE
import Verif.Model.Utils

/-!
# Model of the printed tables of `CLRegression.summary` and `CCRegression.summary` (regression.py 507-621, 833-873)

A table is the list of its rows. The headings, the formatting of numbers to five decimals and the lines below the
tables are not modelled.
-/

namespace Verif

open Real

set_option autoImplicit false

/-- A printed row of a table of coefficients: the Greek letter and number of the coefficient (`none` for the
unnumbered `α`), the estimate, its standard error, the t value and the p-value (`none` for `nan`), and the stars. -/
structure CoefRow where
  letter : String
  index : Option ℕ
  estimate : ℝ
  se : ℝ
  t : Option ℝ
  p : Option ℝ
  stars : String

/-- The p-value of a t value, `2 * (1 - norm.cdf(|t|))`: regression.py 538-542, 565-569, 576-580; `cdf` is
`norm.cdf`. -/
noncomputable def tPvalue (cdf : ℝ → ℝ) (t : Option ℝ) : Option ℝ := t.map fun t => 2 * (1 - cdf |t|)

/-- `significance_code` of a p-value that may be `nan` (all comparisons with `nan` are false): utils.py 122-133. -/
noncomputable def starsOf : Option ℝ → String
  | none => ""
  | some p => significanceCode p

/-- A row of the table of `beta`: regression.py 535-545. -/
noncomputable def betaRow (cdf : ℝ → ℝ) (i : ℕ) (coef se : ℝ) : CoefRow :=
  let t : Option ℝ := if se ≠ 0 then some |coef / se| else none
  let p := tPvalue cdf t
  ⟨"β", some i, coef, se, t, p, starsOf p⟩

/-- The row of `alpha`: regression.py 562-573. -/
noncomputable def alphaRow (cdf : ℝ → ℝ) (alpha se : ℝ) : CoefRow :=
  let t : Option ℝ := if se ≠ 0 then some (alpha / se) else none
  let p := tPvalue cdf t
  ⟨"α", none, alpha, se, t, p, starsOf p⟩

/-- A row of the table of `gamma`: regression.py 574-584. -/
noncomputable def gammaRow (cdf : ℝ → ℝ) (i : ℕ) (coef se : ℝ) : CoefRow :=
  let t : Option ℝ := if se ≠ 0 then some (coef / se) else none
  let p := tPvalue cdf t
  ⟨"γ", some i, coef, se, t, p, starsOf p⟩

/-- The results of the three kinds of fit. -/
inductive CLFitted (n p : ℕ) where
  | mean (r : CLResult (CLParams p) ℝ) (se : MeanSE p)
  | kappa (r : CLResult (CLParams p) (Fin n → ℝ)) (se : KappaSE n p)
  | mixed (r : CLResult (CLParams p) (Fin n → ℝ)) (se : MixedSE n p)

/-- The tables of coefficients printed by `CLRegression.summary()`, one after the other: regression.py 507-584. -/
noncomputable def clSummary {n p : ℕ} (cdf : ℝ → ℝ) : Option (CLFitted n p) → Except PyErr (List CoefRow)
  | none => .error .valueError
  | some (.mean r se) => .ok (List.ofFn fun j => betaRow cdf j (r.params.beta j) (se.beta j))
  | some (.kappa r se) => .ok (alphaRow cdf r.params.alpha se.alpha ::
      List.ofFn fun j => gammaRow cdf j (r.params.gamma j) (se.gamma j))
  | some (.mixed r se) => .ok ((List.ofFn fun j => betaRow cdf j (r.params.beta j) (se.beta j)) ++
      alphaRow cdf r.params.alpha se.alpha :: List.ofFn fun j => gammaRow cdf j (r.params.gamma j) (se.gamma j))

/-! ## Circular-circular regression -/

/-- `cos_labels`, `sin_labels`, pairs of feature (from 0) and harmonic (from 1): regression.py 736-745. -/
def ccLabels (m K : ℕ) : List (ℕ × ℕ) :=
  (List.range m).flatMap fun j => (List.range K).map fun k => (j, k + 1)

/-- A vector of coefficients in the order of the columns of the design matrix: regression.py 736-754. -/
noncomputable def ccCoefs {m K : ℕ} (b : CCTerm m K → ℝ) : List ℝ :=
  b (.inl ()) ::
    (((List.finRange m).flatMap fun j => (List.finRange K).map fun k => b (.inr (.inl (j, k)))) ++
      (List.finRange m).flatMap fun j => (List.finRange K).map fun k => b (.inr (.inr (j, k))))

/-- A printed row: `(Intercept)`, or `cos(x1,k=2)` as `("cos", 1, 2)`, and the two coefficients; a coefficient
is `none` if the index is outside the array. -/
structure CCRow where
  label : Option (String × ℕ × ℕ)
  cosCoef : Option ℝ
  sinCoef : Option ℝ

/-- The table printed by `CCRegression.summary()`: regression.py 841-866. -/
noncomputable def ccSummary {n m K : ℕ} (r : CCResult n m K) : List CCRow :=
  let cosCoeffs := ccCoefs r.betaCos
  let sinCoeffs := ccCoefs r.betaSin
  let offset := 1
  let sineOffset := offset + (ccLabels m K).length
  ⟨none, cosCoeffs[0]?, sinCoeffs[0]?⟩ ::
    (((ccLabels m K).zipIdx.map fun q =>
        ⟨some ("cos", q.1.1 + 1, q.1.2), cosCoeffs[offset + q.2]?, sinCoeffs[offset + q.2]?⟩) ++
      (ccLabels m K).zipIdx.map fun q =>
        ⟨some ("sin", q.1.1 + 1, q.1.2), cosCoeffs[sineOffset + q.2]?, sinCoeffs[sineOffset + q.2]?⟩)

/-- `feature_names` of a model built from arrays: regression.py 692. -/
def ccFeatureNames (m : ℕ) : List (String × ℕ) := (List.range m).map fun i => ("x", i)

end Verif
