import Mathlib.Data.Real.Basic
import Mathlib.Algebra.Order.Floor.Ring
import Mathlib.Algebra.Order.Archimedean.Real.Basic

/-! Specification of the linear sample quantile (type 7). -/

namespace Verif.Spec

set_option autoImplicit false

/-- `x` is the linear (type 7) `p`-quantile of `data`: in an ascending arrangement `s` of the data
with 0-based positions, `x` is read off at position `p (n-1)` by linear interpolation: `p (n-1) =
i + f` with `0 ≤ f < 1` and `x = (1-f) s_i + f s_{i+1}` (`s_i` alone when `f = 0`). -/
def IsLinearQuantile (data : List ℝ) (p x : ℝ) : Prop :=
  ∃ s : List ℝ, s.Perm data ∧ s.Pairwise (· ≤ ·) ∧ ∃ (i : ℕ) (f a : ℝ),
    0 ≤ f ∧ f < 1 ∧ p * ((data.length : ℝ) - 1) = i + f ∧ s[i]? = some a ∧
      ((f = 0 ∧ x = a) ∨ ∃ b, s[i + 1]? = some b ∧ x = (1 - f) * a + f * b)

end Verif.Spec
