import Mathlib.Data.Real.Basic
import Mathlib.Algebra.Order.Floor.Ring
import Mathlib.Algebra.Order.Archimedean.Real.Basic
import Mathlib.Algebra.Order.Round
import Mathlib.Analysis.SpecialFunctions.Trigonometric.Basic

/-!
# Python / numpy primitives

Floats are modelled by real numbers (see DESIGN.md); the definitions below are the numpy and
Python primitives used by the modelled functions.
-/

namespace Verif

/-- Exceptions raised by the modelled code; the message text is not modelled. -/
inductive PyErr where
  | valueError
  | typeError
  | indexError
  | runtimeError
  | unboundLocalError
  | assertionError
  | notImplementedError
  | keyError
  | attributeError
  deriving DecidableEq, Repr

/-- Python and numpy `%` on floats with a positive divisor: floor-mod, `x - b*⌊x/b⌋`. -/
noncomputable def pymod (x b : ℝ) : ℝ := x - b * (⌊x / b⌋ : ℤ)

/-- `np.isclose(a, b, rtol, atol)`: `|a - b| ≤ atol + rtol*|b|`. -/
def isclose (a b rtol atol : ℝ) : Prop := |a - b| ≤ atol + rtol * |b|

noncomputable instance (a b rtol atol : ℝ) : Decidable (isclose a b rtol atol) :=
  inferInstanceAs (Decidable (_ ≤ _))

/-- numpy's default relative tolerance `1e-5`. -/
noncomputable def rtolDefault : ℝ := 1 / 10 ^ 5
/-- numpy's default absolute tolerance `1e-8`. -/
noncomputable def atolDefault : ℝ := 1 / 10 ^ 8

/-- Division as numpy performs it on floats: a zero divisor gives a non-finite value
(`nan` or `±inf`), modelled by `none`. -/
noncomputable def pydiv (a b : ℝ) : Option ℝ := if b = 0 then none else some (a / b)

/-- `np.clip(x, lo, hi)` for `lo ≤ hi`: `minimum(maximum(x, lo), hi)`. -/
noncomputable def clip (x lo hi : ℝ) : ℝ := min (max x lo) hi

/-- Round half to even, as `np.round(x)` / Python `round(x)` do. -/
noncomputable def roundEven (x : ℝ) : ℤ :=
  if x - ⌊x⌋ < 1 / 2 then ⌊x⌋
  else if 1 / 2 < x - ⌊x⌋ then ⌊x⌋ + 1
  else if Even ⌊x⌋ then ⌊x⌋ else ⌊x⌋ + 1

/-- `np.round(x, 5)` (real arithmetic: scale, round half to even, unscale). -/
noncomputable def round5 (x : ℝ) : ℝ := (roundEven (x * 10 ^ 5) : ℝ) / 10 ^ 5

/-- `np.mean` of a one-dimensional array (`nan` on an empty array). -/
noncomputable def mean (l : List ℝ) : Option ℝ := pydiv l.sum l.length

/-- `np.max` of an array; numpy raises on an empty one (`none`). -/
noncomputable def maxL : List ℝ → Option ℝ
  | [] => none
  | x :: xs => some (xs.foldl max x)

/-- `np.min` of an array; numpy raises on an empty one (`none`). -/
noncomputable def minL : List ℝ → Option ℝ
  | [] => none
  | x :: xs => some (xs.foldl min x)

/-- `np.sort` of a one-dimensional float array. -/
noncomputable def sortR (l : List ℝ) : List ℝ := l.mergeSort (fun a b => decide (a ≤ b))

/-- `np.diff` of a one-dimensional array: `a[1:] - a[:-1]`. -/
noncomputable def diff (l : List ℝ) : List ℝ := List.zipWith (fun a b => b - a) l l.tail

end Verif
