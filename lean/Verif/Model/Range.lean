import Verif.Model.Median

/-!
# Model of `pycircstat2/descriptive.py`: `circ_kappa`, smoothing, density estimate, range, quantile
-/

namespace Verif

open Real

set_option autoImplicit false

/-- Uncorrected estimate of `circ_kappa`: descriptive.py 1388-1398. -/
noncomputable def kappaRaw (r : ℝ) : ℝ :=
  if r < 0.53 then 2 * r + r ^ 3 + 5 * r ^ 5 / 6
  else if r < 0.85 then -0.4 + 1.39 * r + 0.43 / (1 - r)
  else
    let nom := r ^ 3 - 4 * r ^ 2 + 3 * r
    if nom ≠ 0 then 1 / nom else 1 / 10 ^ 16

/-- `circ_kappa(r, n)`: descriptive.py 1347-1408. `kappa = 0` in the correction divides by zero; with
the numpy floats the library passes, the result is `max(-inf, 0) = 0`. -/
noncomputable def circKappa (r : ℝ) (n : Option ℕ) : ℝ :=
  let kappa := kappaRaw r
  match n with
  | none => kappa
  | some n =>
    if n ≤ 15 ∧ r < 0.7 then
      if kappa < 2 then
        if n * kappa = 0 then 0 else max (kappa - 2 * 1 / (n * kappa)) 0
      else ((n : ℝ) - 1) ^ 3 * kappa / ((n : ℝ) ^ 3 + n)
    else kappa

/-- `compute_smooth_params(r, n)`: descriptive.py 1635-1658 (`none` where a division by zero gives
`inf`). -/
noncomputable def smoothParam (r : ℝ) (n : ℕ) : Option ℝ :=
  (pysqrt (circKappa r (some n))).bind fun s => (pydiv 1 s).bind fun zeta =>
    pydiv (sqrt 7 * zeta) ((n : ℝ) ^ (0.2 : ℝ))

/-- The density estimate at one point of the grid: descriptive.py 1694-1698 (`h > 0`, at least one
observation). -/
noncomputable def kdeAt (alpha : List ℝ) (h x : ℝ) : ℝ :=
  let weightSum := (alpha.map fun a =>
    let d := |x - a|
    let e := min d (2 * π - d)
    let e := min e h
    (1 - e ^ 2 / h ^ 2) ^ 2).sum
  0.9375 * weightSum / (alpha.length * h)

/-- `np.linspace(0, 2*np.pi, 100)`: descriptive.py 1693. -/
noncomputable def kdeGrid : List ℝ := (List.range 100).map fun i : ℕ => (i : ℝ) * (2 * π / 99)

/-- `nonparametric_density_estimation(alpha, h, radius)`: descriptive.py 1661-1702. -/
noncomputable def kde (alpha : List ℝ) (h radius : ℝ) : List ℝ × List ℝ :=
  (kdeGrid, kdeGrid.map fun x => radius * sqrt (1 + π * kdeAt alpha h x) - radius)

/-- `np.diff(alpha, prepend=alpha[-1] - 2*np.pi)`: descriptive.py 1727. -/
noncomputable def spacings (alpha : List ℝ) (last : ℝ) : List ℝ :=
  diff ((last - 2 * π) :: alpha)

/-- `circ_range(alpha)`: descriptive.py 1705-1728. -/
noncomputable def circRange (alpha : List ℝ) : Except PyErr ℝ :=
  let a := sortR (alpha.map fun x => pymod x (2 * π))
  match a.getLast? with
  | none => .error .indexError
  | some last => match maxL (spacings a last) with
    | none => .error .valueError
    | some m => .ok (2 * π - m)

/-- Deviation from the median folded to `(-π, π]`: descriptive.py 1775-1778. -/
noncomputable def shifted (m a : ℝ) : ℝ :=
  let s := pymod (a - m) (2 * π)
  if π < s then s - 2 * π else s

/-- `np.quantile(data, q, method)` for `method="linear"` (virtual index `q (n-1)`, linear
interpolation) and `"midpoint"` (mean of the two neighbours of the virtual index when it is not an
integer), for a non-empty array and `0 ≤ q ≤ 1`. -/
noncomputable def npQuantile (data : List ℝ) (q : ℝ) (linear : Bool) : ℝ :=
  let s := sortR data
  let v := q * ((s.length : ℝ) - 1)
  let lo := s.getD ⌊v⌋₊ 0
  let hi := s.getD ⌈v⌉₊ 0
  if linear then lo + (hi - lo) * (v - ⌊v⌋₊) else lo + (hi - lo) * (if v = ⌊v⌋₊ then 0 else 1 / 2)

/-- `circ_quantile(alpha, probs, type)` after the median: descriptive.py 1775-1788. -/
noncomputable def quantilesFrom (alpha : List ℝ) (m : ℝ) (probs : List ℝ) (type : ℤ) :
    Except PyErr (List ℝ) :=
  if probs.all fun q => decide (0 ≤ q) && decide (q ≤ 1) then
    .ok (probs.map fun q =>
      pymod (npQuantile (alpha.map (shifted m)) q (type == 7) + m) (2 * π))
  else .error .valueError

/-- `circ_quantile(alpha, probs, type)`: descriptive.py 1731-1788. The result is `none` when the
median is `nan` (every entry is then `nan`). -/
noncomputable def circQuantile (alpha probs : List ℝ) (type : ℤ) (init : List (Option ℝ)) :
    Except PyErr (Option (List ℝ)) :=
  (circMedian alpha (ones alpha) "deviation" true "all" init).bind fun med =>
    match med with
    | none => .ok none
    | some [] => .ok none
    | some (m :: _) => (quantilesFrom alpha m probs type).map some

end Verif
