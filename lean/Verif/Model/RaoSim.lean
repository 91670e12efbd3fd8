import Verif.Model.HypUnif
import Verif.Model.Utils

/-!
# Model of the samples simulated for grouped data in `rao_spacing_test`, hypothesis.py 1866-1871
-/

namespace Verif

open Real

set_option autoImplicit false

/-- One row of `samples` for grouped data with `m` classes: hypothesis.py 1868-1871. `u` are uniform draws
from `[0, 2π)`, `e` the von Mises noise. -/
noncomputable def raoGroupedSample (m : ℕ) (u e : List ℝ) : List ℝ :=
  List.zipWith (fun u e => angmod2pi (⌊u * m / (2 * π)⌋ * (2 * π / m) + e)) u e

/-- `rao_spacing_test(alpha, w, kappa, n_simulation)` for grouped data, from the draws: hypothesis.py
1834-1852, 1865-1880. -/
noncomputable def raoGroupedTest (alpha w : List ℝ) (nSim : ℤ) (rows : List (List ℝ × List ℝ)) :
    Except PyErr (ℝ × ℝ) :=
  raoSpacingTest alpha (some w) nSim (rows.map fun r => raoGroupedSample alpha.length r.1 r.2)

end Verif
