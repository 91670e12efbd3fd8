import Mathlib.Analysis.SpecialFunctions.Complex.Log
import Mathlib.Data.Real.Basic

/-!
# Specification vocabulary for weighted circular samples

Nothing here refers to the model.
-/

namespace Verif.Spec

open Complex

/-- Sum of `w_j * exp(i p α_j)` over a weighted sample. -/
noncomputable def expSum (alpha w : List ℝ) (p : ℤ) : ℂ :=
  (List.zipWith (fun (a w : ℝ) => (w : ℂ) * exp ((p * a : ℝ) * I)) alpha w).sum

/-- The `p`-th trigonometric moment: weighted average of the unit vectors `exp(i p α_j)`. -/
noncomputable def moment (alpha w : List ℝ) (p : ℤ) : ℂ := expSum alpha w p / (w.sum : ℝ)

/-- The sample in which the `j`-th value occurs `k_j` times (`np.repeat`). -/
def expand {α : Type} (xs : List α) (ks : List ℕ) : List α :=
  (List.zipWith (fun x k => List.replicate k x) xs ks).flatten

end Verif.Spec

namespace Verif.Spec

open Complex

/-- The resultant vector of a sample of angles: the sum of the unit vectors `exp(i a)`. -/
noncomputable def resultant (l : List ℝ) : ℂ := (l.map fun a : ℝ => exp ((a : ℂ) * I)).sum

/-- `x` is the sample in which each angle of `alpha` is repeated as often as its weight says, weights
being whole numbers up to the tolerance of `np.allclose`. -/
def IsExpansion (alpha w x : List ℝ) : Prop :=
  ∃ ks : List ℕ, ks.length = alpha.length ∧
    List.Forall₂ (fun (v : ℝ) (k : ℕ) => |v - k| ≤ 1 / 10 ^ 8 + 1 / 10 ^ 5 * k) w ks ∧
    x = expand alpha ks

/-- The weight of every observation of a sample of size `n`: one each when no weights are given, the
same one for all when a single weight is given. -/
def fullWeights (n : ℕ) : Option (List ℝ) → List ℝ
  | none => List.replicate n 1
  | some [v] => List.replicate n v
  | some w => w

end Verif.Spec
