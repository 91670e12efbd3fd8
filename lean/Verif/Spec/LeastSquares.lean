import Mathlib.Data.Matrix.Mul
import Mathlib.Data.Real.Basic
import Mathlib.Algebra.BigOperators.Fin

/-! # Specification: least squares -/

namespace Verif

set_option autoImplicit false

/-- The residual sum of squares of the linear model `y ≈ X b`. -/
noncomputable def rss {n : ℕ} {C : Type} [Fintype C] (X : Matrix (Fin n) C ℝ) (y : Fin n → ℝ) (b : C → ℝ) : ℝ :=
  ∑ i, (y i - X.mulVec b i) ^ 2

/-- `b` is a least-squares solution of `y ≈ X b`. -/
def IsLeastSquares {n : ℕ} {C : Type} [Fintype C] (X : Matrix (Fin n) C ℝ) (y : Fin n → ℝ) (b : C → ℝ) : Prop :=
  ∀ b', rss X y b ≤ rss X y b'

end Verif
