import Verif.Model.Num

/-!
# Model of `pycircstat2/utils.py`
-/

namespace Verif

open Real

/-- `data2rad(data, k)`: utils.py 10-31. -/
noncomputable def data2rad (data k : ℝ) : ℝ := 2 * π * data / k

/-- `rad2data(rad, k)`: utils.py 34-40; `k=None` is `none`. -/
noncomputable def rad2data (rad : ℝ) : Option ℝ → ℝ
  | none => rad
  | some k => k * rad / (2 * π)

/-- The arithmetic body of `angmod`, utils.py 78-88, for one angle: double `%`, then the
adjustment of a result equal to the upper bound. -/
noncomputable def angmodB (lo hi rad : ℝ) : ℝ :=
  let span := hi - lo
  let result := pymod (pymod (rad - lo) span + span) span + lo
  if result = hi then lo else result

/-- `angmod(rad, bounds)`: utils.py 55-88, including the check of `bounds` (73-76). -/
noncomputable def angmod (rad : ℝ) (bounds : List ℝ) : Except PyErr ℝ :=
  match bounds with
  | [lo, hi] => if lo ≥ hi then .error .valueError else .ok (angmodB lo hi rad)
  | _ => .error .valueError

/-- `angmod(rad)` with the default bounds `[0, 2π]` (utils.py 56). -/
noncomputable def angmod2pi (rad : ℝ) : ℝ := angmodB 0 (2 * π) rad

/-- `angular_distance(a, b)`: utils.py 91-119, for one pair of angles. -/
noncomputable def angularDistance (a b : ℝ) : ℝ :=
  let c := angmod2pi (a - b)
  let d := 2 * π - c
  min c d

/-- `significance_code(p)`: utils.py 122-133. -/
noncomputable def significanceCode (p : ℝ) : String :=
  if p < 0.001 then "***"
  else if p < 0.01 then "**"
  else if p < 0.05 then "*"
  else if p < 0.1 then "."
  else ""

/-- `is_within_circular_range(value, lb, ub)`: utils.py 164-191. -/
noncomputable def isWithinCircularRange (value lb ub : ℝ) : Bool :=
  let value := pymod value (2 * π)
  let lb := pymod lb (2 * π)
  let ub := pymod ub (2 * π)
  if lb ≤ ub then decide (lb ≤ value) && decide (value ≤ ub)
  else decide (value ≥ lb) || decide (value ≤ ub)

/-- The number of intervals of a full cycle used by `rotate_data`, utils.py 211-218. -/
noncomputable def unitCycle (unit : String) : Except PyErr ℝ :=
  if unit = "degree" then .ok 360
  else if unit = "radian" then .ok (2 * π)
  else if unit = "hour" then .ok 24
  else .error .valueError

/-- `rotate_data(alpha, angle, unit)`: utils.py 193-230. -/
noncomputable def rotateData (alpha : List ℝ) (angle : ℝ) (unit : String) :
    Except PyErr (List ℝ) := do
  let k ← unitCycle unit
  let angleRad := data2rad angle k
  return alpha.map fun a => rad2data (angmod2pi (data2rad a k + angleRad)) (some k)

/-- `A1inv(R)`: utils.py 236-242. The last branch divides by `R³-4R²+3R`, which vanishes at
`R = 1` (`ZeroDivisionError`/`inf`): `none`. -/
noncomputable def a1inv (R : ℝ) : Option ℝ :=
  if 0 ≤ R ∧ R < 0.53 then some (2 * R + R ^ 3 + (5 * R ^ 5) / 6)
  else if R < 0.85 then some (-0.4 + 1.39 * R + 0.43 / (1 - R))
  else pydiv 1 (R ^ 3 - 4 * R ^ 2 + 3 * R)

end Verif
