import Verif.Model.Regression

/-!
# Model of `CLRegression._compute_standard_errors` (regression.py 330-428)

`_safe_inverse` (regression.py 21-25) is a parameter `inv`. The square root of a negative number, `nan` in
the code, is 0 here; the theorems show that the arguments are positive.
-/

namespace Verif

open Real

set_option autoImplicit false

/-- The entries added for `model_type == "mean"`; `kappa` is `none` when the code returns `nan`. -/
structure MeanSE (p : ℕ) where
  beta : Fin p → ℝ
  mu : ℝ
  kappa : Option ℝ

/-- The entries added for `model_type == "kappa"`. -/
structure KappaSE (n p : ℕ) where
  alpha : ℝ
  gamma : Fin p → ℝ
  mu : ℝ
  kappa : Fin n → ℝ

/-- The entries added for `model_type == "mixed"`. -/
structure MixedSE (n p : ℕ) extends KappaSE n p where
  beta : Fin p → ℝ

section

variable {n p : ℕ} (X : Fin n → Fin p → ℝ) (A1 : ℝ → ℝ)
  (inv : ∀ q : ℕ, Matrix (Fin q) (Fin q) ℝ → Matrix (Fin q) (Fin q) ℝ)

/-- "mean": regression.py 344-366. A concentration of zero makes `A1(kappa) / kappa` a `nan`. -/
noncomputable def meanSE (r : CLResult (CLParams p) ℝ) : MeanSE p :=
  let G := gMat X r.params.beta
  let weight := r.kappa * A1 r.kappa
  let cov := inv p (weight • gram (fun _ => 1) G + ridge p)
  let denomMu := max (((n : ℝ) - p) * r.kappa * A1 r.kappa) (1 / 10 ^ 12)
  let denomKappa := n * (1 - A1 r.kappa ^ 2 - A1 r.kappa / r.kappa)
  { beta := fun j => sqrt (cov j j)
    mu := 1 / sqrt denomMu
    kappa := if r.kappa = 0 then none else some (sqrt (1 / max denomKappa (1 / 10 ^ 12))) }

/-- `cov_gamma_alpha`: regression.py 370-374, 402-406. -/
noncomputable def covGammaAlpha (r : CLResult (CLParams p) (Fin n → ℝ)) : Matrix (Fin (p + 1)) (Fin (p + 1)) ℝ :=
  let weights := fun i =>
    exp (∑ j, withOnes X i j * (Fin.cons r.params.alpha r.params.gamma : Fin (p + 1) → ℝ) j) ^ 2
      * a1Prime A1 (r.kappa i)
  inv (p + 1) (gram weights (withOnes X) + ridge (p + 1))

/-- "kappa": regression.py 368-390. -/
noncomputable def kappaSE (r : CLResult (CLParams p) (Fin n → ℝ)) : KappaSE n p :=
  let cov := covGammaAlpha X A1 inv r
  { alpha := sqrt (cov 0 0)
    gamma := fun j => sqrt (cov j.succ j.succ)
    mu := 1 / sqrt (max ((∑ i, r.kappa i * A1 (r.kappa i)) - 1 / 2) (1 / 10 ^ 12))
    kappa := fun i => sqrt (1 / max (n * a1Prime A1 (r.kappa i)) (1 / 10 ^ 12)) }

/-- "mixed": regression.py 392-423. -/
noncomputable def mixedSE (r : CLResult (CLParams p) (Fin n → ℝ)) : MixedSE n p :=
  let G := gMat X r.params.beta
  let weights := fun i => r.kappa i * A1 (r.kappa i)
  let covBeta := inv p (gram weights G + ridge p)
  let cov := covGammaAlpha X A1 inv r
  { beta := fun j => sqrt (covBeta j j)
    alpha := sqrt (cov 0 0)
    gamma := fun j => sqrt (cov j.succ j.succ)
    mu := 1 / sqrt (max ((∑ i, r.kappa i * A1 (r.kappa i)) - 1 / 2) (1 / 10 ^ 12))
    kappa := fun i =>
      sqrt (1 / max (n * (1 - A1 (r.kappa i) ^ 2 - A1 (r.kappa i) / r.kappa i)) (1 / 10 ^ 12)) }

end

end Verif
