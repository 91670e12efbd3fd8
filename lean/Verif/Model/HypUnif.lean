import Verif.Model.HypOne
import Verif.Model.Range
import Verif.Model.Dist

/-!
# Model of the omnibus uniformity tests in `pycircstat2/hypothesis.py`, lines 1572-2024

`kuiper_test`, `watson_test`, `rao_spacing_test`, `circ_range_test`, `binomial_test`. Random draws are
parameters. Printing is not modelled.
-/

namespace Verif

open Real

set_option autoImplicit false

/-- `indices / n - ordered` and `ordered - (indices - 1) / n` of `compute_V`, for the sorted sample
`s`: hypothesis.py 1623-1628. -/
noncomputable def kuiperPlus (s : List ℝ) : List ℝ :=
  s.mapIdx fun i v => ((i : ℝ) + 1) / s.length - v / (2 * π)

/-- See `kuiperPlus`. -/
noncomputable def kuiperMinus (s : List ℝ) : List ℝ :=
  s.mapIdx fun i v => v / (2 * π) - (i : ℝ) / s.length

/-- `f = sqrt(n) + 0.155 + 0.24 / sqrt(n)`: hypothesis.py 1629. -/
noncomputable def kuiperF (n : ℕ) : ℝ := sqrt n + 0.155 + 0.24 / sqrt n

/-- `compute_V(sample)[0]`: hypothesis.py 1622-1631; `np.max` of an empty array raises. -/
noncomputable def kuiperV (sample : List ℝ) : Except PyErr ℝ :=
  let s := sortR sample
  match maxL (kuiperPlus s), maxL (kuiperMinus s) with
  | some p, some m => .ok (kuiperF sample.length * (p + m))
  | _, _ => .error .valueError

/-- The series of 49 terms: hypothesis.py 1648-1653. -/
noncomputable def kuiperSeries (V f : ℝ) : ℝ :=
  ((List.range 49).map fun j : ℕ =>
    let m : ℝ := ((j : ℝ) + 1) ^ 2
    let a1 := 4 * m * V ^ 2
    let a2 := exp (-2 * m * V ^ 2)
    2 * (a1 - 1) * a2 - 8 * V / (3 * f) * m * (a1 - 3) * a2).sum

/-- `kuiper_test(alpha, n_simulation)`: hypothesis.py 1572-1671; returns `(V, pval)`. `draws` are the
`n_simulation` columns of simulated angles. -/
noncomputable def kuiperTest (alpha : List ℝ) (nSim : ℤ) (draws : List (List ℝ)) :
    Except PyErr (ℝ × ℝ) :=
  if nSim ≤ 0 then .error .valueError
  else if alpha.length = 0 then .error .valueError
  else (kuiperV alpha).bind fun V =>
    if nSim = 1 then .ok (V, kuiperSeries V (kuiperF alpha.length))
    else (draws.mapM kuiperV).map fun Vs => (V, mcPvalue Vs V)

/-- `compute_U2(sample)`: hypothesis.py 1730-1737. -/
noncomputable def watsonU2One (sample : List ℝ) : ℝ :=
  let u := (sortR sample).map fun v => v / (2 * π)
  let n : ℝ := sample.length
  ((u.mapIdx fun i v => ((v - ((i : ℝ) + 1 - 0.5) / n) - (u.sum / n - 0.5)) ^ 2).sum) + 1 / (12 * n)

/-- The alternating series of 50 terms: hypothesis.py 1753-1754. -/
noncomputable def watsonSeries (U2 : ℝ) : ℝ :=
  2 * ((List.range 50).map fun j : ℕ => (-1 : ℝ) ^ j * exp (-2 * ((j : ℝ) + 1) ^ 2 * π ^ 2 * U2)).sum

/-- `watson_test(alpha, n_simulation)`: hypothesis.py 1674-1772; returns `(U2, pval)`. -/
noncomputable def watsonTest (alpha : List ℝ) (nSim : ℤ) (draws : List (List ℝ)) :
    Except PyErr (ℝ × ℝ) :=
  if nSim ≤ 0 then .error .valueError
  else if alpha.length = 0 then .error .valueError
  else
    let U2 := watsonU2One alpha
    if nSim = 1 then .ok (U2, watsonSeries U2)
    else .ok (U2, mcPvalue (draws.map watsonU2One) U2)

/-- The list of spacings of a sorted, non-empty sample: hypothesis.py 1831. -/
noncomputable def raoSpacings (s : List ℝ) : List ℝ :=
  diff s ++ [2 * π - s.getLastD 0 + s.headD 0]

/-- `compute_U(sample)`: hypothesis.py 1828-1832 (sample not empty). -/
noncomputable def raoU (sample : List ℝ) : ℝ :=
  0.5 * ((raoSpacings (sortR sample)).map fun g => |g - 2 * π / sample.length|).sum

/-- `w.astype(int)`: truncation of a non-negative float. -/
noncomputable def truncNat (x : ℝ) : ℕ := ⌊x⌋.toNat

/-- The sample that the statistic is computed from: hypothesis.py 1834-1852. -/
noncomputable def raoExpand (alpha : List ℝ) (w : Option (List ℝ)) : Except PyErr (List ℝ) :=
  match w with
  | none => .ok alpha
  | some w =>
    if ∃ x ∈ w, x < 0 then .error .valueError
    else if ∃ x ∈ w, ¬ isclose x (roundEven x) rtolDefault atolDefault then .error .valueError
    else if w.length ≠ alpha.length then .error .valueError
    else
      let k := w.map truncNat
      if k.sum ≤ 0 then .error .valueError
      else .ok (List.zipWith (fun a k => List.replicate k a) alpha k).flatten

/-- `rao_spacing_test(alpha, w, kappa, n_simulation)`: hypothesis.py 1775-1894; returns
`(statistic, pval)`, the statistic in degrees. `draws` are the simulated samples (for grouped data:
after snapping to the grid and adding von Mises noise). -/
noncomputable def raoSpacingTest (alpha : List ℝ) (w : Option (List ℝ)) (nSim : ℤ)
    (draws : List (List ℝ)) : Except PyErr (ℝ × ℝ) :=
  if nSim ≤ 0 then .error .valueError
  else if alpha.length = 0 then .error .valueError
  else (raoExpand alpha w).map fun x => (raoU x * (180 / π), mcPvalue (draws.map raoU) (raoU x))

/-- The sum in `circ_range_test`: hypothesis.py 1930-1940. -/
noncomputable def rangeSeries (n : ℕ) (r : ℝ) : ℝ :=
  let q := 1 - r / (2 * π)
  ((List.range (⌊1 / q⌋.toNat)).map fun j : ℕ =>
    (-1 : ℝ) ^ j * (n.choose (j + 1)) * (1 - ((j : ℝ) + 1) * q) ^ (n - 1)).sum

/-- `circ_range_test(alpha)`: hypothesis.py 1897-1955; returns `(range_stat, pval)`. The range is
smaller than `2π`, so the divisor in line 1931 is not zero. -/
noncomputable def rangeTest (alpha : List ℝ) : Except PyErr (ℝ × ℝ) :=
  if alpha.length = 0 then .error .valueError
  else if ∃ a ∈ alpha, 2 * π + 1 / 10 ^ 8 < |a| then .error .valueError
  else (circRange alpha).map fun r => (r, rangeSeries alpha.length r)

/-- `BinomialTestResult`. -/
structure BinomialResult where
  pval : ℝ
  nEff : ℕ
  n1 : ℕ
  n2 : ℕ

/-- `scipy.stats.binom.cdf(k, n, 0.5)`. -/
noncomputable def binomCdfHalf (k n : ℕ) : ℝ := (∑ j ∈ Finset.range (k + 1), (n.choose j : ℝ)) / 2 ^ n

/-- `circ_dist(a, b)` with the default metric, `"center"`: descriptive.py 1452-1453. -/
noncomputable def centerDist (a b : ℝ) : ℝ :=
  Complex.arg (Complex.exp (Complex.I * a) / Complex.exp (Complex.I * b))

/-- `binomial_test(alpha, md)`: hypothesis.py 1958-2024, `md` a scalar. -/
noncomputable def binomialTest (alpha : List ℝ) (md : ℝ) : Except PyErr BinomialResult :=
  if alpha.length = 0 then .error .valueError
  else
    let n1 := alpha.countP fun a => decide (centerDist a md < 0)
    let n2 := alpha.countP fun a => decide (0 < centerDist a md)
    if n1 + n2 = 0 then .ok ⟨1, 0, n1, n2⟩
    else .ok ⟨min (2 * binomCdfHalf (min n1 n2) (n1 + n2)) 1, n1 + n2, n1, n2⟩

end Verif
