import Verif.Model.Utils
import Mathlib.Analysis.SpecialFunctions.Complex.Arg
import Mathlib.Analysis.SpecialFunctions.Pow.Real
import Mathlib.Analysis.SpecialFunctions.Log.Basic
import Mathlib.Analysis.SpecialFunctions.Trigonometric.Inverse

/-!
# Model of `pycircstat2/descriptive.py`, lines 9-526 and 1521-1585

`alpha`, `w` are one-dimensional arrays of equal length. `none` of `Option ℝ` is a non-finite
float (`nan`, `±inf`); `w=None` in the Python signature means `ones alpha`.
-/

namespace Verif

open Real

set_option autoImplicit false

/-- `np.ones_like(alpha)`, the default weights. -/
noncomputable def ones (alpha : List ℝ) : List ℝ := alpha.map fun _ => 1

/-- `np.arctan2(y, x)`. -/
noncomputable def arctan2 (y x : ℝ) : ℝ := Complex.arg ⟨x, y⟩

/-- `compute_C_and_S(alpha, w, p, mean)`: descriptive.py 1547-1585. -/
noncomputable def computeCS (alpha w : List ℝ) (p : ℤ) (mean : ℝ) : Option (ℝ × ℝ) := do
  let n := w.sum
  let C ← pydiv (List.zipWith (fun a w => w * cos (p * (a - mean))) alpha w).sum n
  let S ← pydiv (List.zipWith (fun a w => w * sin (p * (a - mean))) alpha w).sum n
  return (C, S)

/-- `circ_r` when `Cbar` and `Sbar` are given: descriptive.py 46. -/
noncomputable def circRofCS (C S : ℝ) : ℝ := sqrt (C ^ 2 + S ^ 2)

/-- `circ_r(alpha, w)`: descriptive.py 9-48. -/
noncomputable def circR (alpha w : List ℝ) : Option ℝ := do
  let (C, S) ← computeCS alpha w 1 0
  return circRofCS C S

/-- `circ_mean(alpha, w)`: descriptive.py 51-100 (`np.isclose(r, 0)` with default tolerances). -/
noncomputable def circMean (alpha w : List ℝ) : Option ℝ := do
  let (C, S) ← computeCS alpha w 1 0
  let r := circRofCS C S
  if isclose r 0 rtolDefault atolDefault then none else some (angmod2pi (arctan2 S C))

/-- `circ_mean_and_r(alpha, w)`: descriptive.py 103-141 (`atol=1e-12`). The outer `none` is the
all-`nan` result for total weight 0; the inner one is the `nan` mean of line 137. -/
noncomputable def circMeanAndR (alpha w : List ℝ) : Option (Option ℝ × ℝ) := do
  let (C, S) ← computeCS alpha w 1 0
  let r := circRofCS C S
  if isclose r 0 rtolDefault (1 / 10 ^ 12) then return (none, r)
  else return (some (angmod2pi (arctan2 S C)), r)

/-- `circ_mean_and_r_of_means(ms=ms, rs=rs)`: descriptive.py 144-198 (finite `ms`, `rs`). -/
noncomputable def circMeanAndROfMeans (ms rs : List ℝ) : Except PyErr (Option ℝ × ℝ) :=
  if ms.length ≠ rs.length ∨ ms.length = 0 then .error .valueError
  else
    let n : ℝ := ms.length
    let X := (List.zipWith (fun m r => cos m * r) ms rs).sum / n
    let Y := (List.zipWith (fun m r => sin m * r) ms rs).sum / n
    let r := sqrt (X ^ 2 + Y ^ 2)
    if isclose r 0 rtolDefault (1 / 10 ^ 12) then .ok (none, r)
    else .ok (some (angmod2pi (arctan2 Y X)), r)

/-- `circ_moment(alpha, w, p, mean, centered)`: descriptive.py 201-245. -/
noncomputable def circMoment (alpha w : List ℝ) (p : ℤ) (mean : Option ℝ) (centered : Bool) :
    Option ℂ := do
  let m ← match mean with
    | some m => some m
    | none => if centered then circMean alpha w else some 0
  let (C, S) ← computeCS alpha w p m
  return ⟨C, S⟩

/-- `convert_moment(mp)`: descriptive.py 1521-1544. -/
noncomputable def convertMoment (mp : ℂ) : ℝ × ℝ := (angmod2pi (Complex.arg mp), ‖mp‖)

/-- `circ_dispersion(alpha, w, mean)`: descriptive.py 248-287. -/
noncomputable def circDispersion (alpha w : List ℝ) (mean : Option ℝ) : Option ℝ := do
  let mp1 ← circMoment alpha w 1 mean false
  let mp2 ← circMoment alpha w 2 mean false
  let r1 := ‖mp1‖
  let r2 := ‖mp2‖
  pydiv (1 - r2) (2 * r1 ^ 2)

/-- `circ_skewness(alpha, w)`: descriptive.py 290-323. -/
noncomputable def circSkewness (alpha w : List ℝ) : Option ℝ := do
  let mp1 ← circMoment alpha w 1 none false
  let mp2 ← circMoment alpha w 2 none false
  let (u1, r1) := convertMoment mp1
  let (u2, r2) := convertMoment mp2
  pydiv (r2 * sin (u2 - 2 * u1)) ((1 - r1) ^ (1.5 : ℝ))

/-- `circ_kurtosis(alpha, w)`: descriptive.py 326-359. -/
noncomputable def circKurtosis (alpha w : List ℝ) : Option ℝ := do
  let mp1 ← circMoment alpha w 1 none false
  let mp2 ← circMoment alpha w 2 none false
  let (u1, r1) := convertMoment mp1
  let (u2, r2) := convertMoment mp2
  pydiv (r2 * cos (u2 - 2 * u1) - r1 ^ 4) ((1 - r1) ^ 2)

/-- The `bin_size` in effect in `circ_var`, descriptive.py 475-479. `np.all(w == w[0])` on an empty
`w` is an `IndexError`; `np.diff(alpha).min()` on fewer than two angles a `ValueError`. -/
noncomputable def effectiveBin (alpha w : Option (List ℝ)) (binSize : Option ℝ) :
    Except PyErr (Option ℝ) :=
  match binSize, w with
  | some b, _ => .ok (some b)
  | none, none => .ok none
  | none, some [] => .error .indexError
  | none, some (w0 :: ws) =>
    if ∀ x ∈ ws, x = w0 then .ok none
    else match alpha with
      | none => .error .valueError
      | some a => match minL (diff a) with
        | none => .error .valueError
        | some b => .ok (some b)

/-- The resultant length in effect in `circ_var`, descriptive.py 470-473. -/
noncomputable def effectiveR (alpha w : Option (List ℝ)) (r : Option ℝ) :
    Except PyErr (Option ℝ) :=
  match r, alpha with
  | some r, _ => .ok (some r)
  | none, none => .error .valueError
  | none, some a => .ok (circR a (w.getD (ones a)))

/-- The bin correction, descriptive.py 482. -/
noncomputable def correctedR (r : ℝ) : Option ℝ → Option ℝ
  | none => some r
  | some b => if b = 0 then some r else do
      let f ← pydiv b (2 * sin (b / 2))
      return r * f

/-- `circ_var(alpha, w, r, bin_size)`: descriptive.py 436-486. -/
noncomputable def circVar (alpha w : Option (List ℝ)) (r binSize : Option ℝ) :
    Except PyErr (Option ℝ) := do
  let r ← effectiveR alpha w r
  let b ← effectiveBin alpha w binSize
  return do
    let r ← r
    let rc ← correctedR r b
    return 1 - rc

/-- `angular_var`: descriptive.py 362-394. -/
noncomputable def angularVar (alpha w : Option (List ℝ)) (r binSize : Option ℝ) :
    Except PyErr (Option ℝ) := do
  let v ← circVar alpha w r binSize
  return v.map (2 * ·)

/-- `np.sqrt` on floats: `nan` for a negative argument. -/
noncomputable def pysqrt (x : ℝ) : Option ℝ := if x < 0 then none else some (sqrt x)

/-- `np.log` on floats: non-finite for an argument ≤ 0. -/
noncomputable def pylog (x : ℝ) : Option ℝ := if x ≤ 0 then none else some (log x)

/-- `angular_std`: descriptive.py 397-433. -/
noncomputable def angularStd (alpha w : Option (List ℝ)) (r binSize : Option ℝ) :
    Except PyErr (Option ℝ) := do
  let v ← angularVar alpha w r binSize
  return v.bind pysqrt

/-- `circ_std`: descriptive.py 489-526. -/
noncomputable def circStd (alpha w : Option (List ℝ)) (r binSize : Option ℝ) :
    Except PyErr (Option ℝ) := do
  let v ← circVar alpha w r binSize
  return do
    let v ← v
    let l ← pylog (1 - v)
    pysqrt (-2 * l)

end Verif
