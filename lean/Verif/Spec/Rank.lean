import Mathlib.Data.Real.Basic
import Mathlib.Data.List.Count
import Verif.Spec.Circle

/-!
# Specification vocabulary for ranks and empirical distribution functions

Nothing here refers to the model.
-/

namespace Verif.Spec

/-- Number of observations that do not exceed `v`. -/
noncomputable def countLe (l : List ℝ) (v : ℝ) : ℕ := l.countP fun y => decide (y ≤ v)

/-- Empirical distribution function of a sample. -/
noncomputable def ecdf (l : List ℝ) (v : ℝ) : ℝ := countLe l v / l.length

/-- Watson's two-sample statistic: `n₁n₂/N²` times the centred sum of squares, over the pooled sample,
of the difference of the two empirical distribution functions. -/
noncomputable def watsonStatistic (x y : List ℝ) : ℝ :=
  let N : ℝ := x.length + y.length
  x.length * y.length / N ^ 2 *
    (((x ++ y).map fun v => (ecdf y v - ecdf x v) ^ 2).sum
      - ((x ++ y).map fun v => ecdf y v - ecdf x v).sum ^ 2 / N)

/-- No two different values of the list are so close that `np.isclose` with absolute tolerance `atol`
takes them for equal. -/
def Separated (atol : ℝ) (l : List ℝ) : Prop :=
  ∀ a ∈ l, ∀ b ∈ l, a ≠ b → atol + 1 / 10 ^ 5 * |b| < |a - b|

open Classical in
/-- The number of pairs with the first entry smaller, ties counting one half. -/
noncomputable def mannWhitney (a b : List ℝ) : ℝ :=
  (a.map fun s => (b.map fun t => if s < t then (1 : ℝ) else if s = t then 1 / 2 else 0).sum).sum

/-- `x'` lists, in any order, the directions of the sample `x` turned by `t`, as angles in `[0, 2π)`. -/
def IsRotated (t : ℝ) (x x' : List ℝ) : Prop :=
  ∃ z : List ℝ, List.Forall₂ (fun a b => (0 ≤ b ∧ b < 2 * Real.pi) ∧ SameDir b (a + t)) x z ∧ x'.Perm z

end Verif.Spec

namespace Verif.Spec

/-- The uniform score of an observation: its rank in the pooled sample, spread evenly over the circle. -/
noncomputable def uniformScore (pooled : List ℝ) (v : ℝ) : ℝ :=
  2 * Real.pi / pooled.length * countLe pooled v

end Verif.Spec

namespace Verif.Spec

/-- Average rank of `x` in the list: the mean of the ranks its tied group occupies. -/
noncomputable def midRank (l : List ℝ) (x : ℝ) : ℝ :=
  (((l.countP fun y => decide (y < x) : ℕ) : ℝ) + countLe l x + 1) / 2

open Classical in
/-- One for a positive number, one half for zero, zero for a negative number. -/
noncomputable def halfStep (z : ℝ) : ℝ := if 0 < z then 1 else if z = 0 then 1 / 2 else 0

/-- The number of unordered pairs (an entry may be paired with itself) with positive sum, pairs with
sum zero counting one half. -/
noncomputable def walshPlus (d : List ℝ) : ℝ :=
  ((d.map fun x => (d.map fun y => halfStep (x + y)).sum).sum
    + (d.map fun x => halfStep (x + x)).sum) / 2

/-- `e` is the signed angle, in `[-π, π)`, from the direction `m` to the direction `a`. -/
def IsSignedDev (m a e : ℝ) : Prop := -Real.pi ≤ e ∧ e < Real.pi ∧ SameDir a (m + e)

end Verif.Spec
