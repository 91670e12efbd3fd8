import Verif.Model.Num

/-! # Model of `scipy.interpolate.PchipInterpolator`

scipy is not part of the repository. The tabulated distribution functions of
`pycircstat2/distributions.py` (lines 4630, 7223-7231, 7292-7301) are interpolated with this class, so
its documented algorithm (Fritsch and Butland slopes, three-point end formula, piecewise cubic Hermite
polynomial, first and last piece used outside the nodes) is written out here. Nodes and values are
`xs 0, …, xs n` and `ys 0, …, ys n`. -/

set_option autoImplicit false

namespace Verif

/-- The slope of the data over piece `i`. -/
noncomputable def pchipSecant (xs ys : ℕ → ℝ) (i : ℕ) : ℝ := (ys (i + 1) - ys i) / (xs (i + 1) - xs i)

/-- The slope at an end point, from the two nearest pieces of lengths `h0`, `h1` and slopes `m0`, `m1`. -/
noncomputable def pchipEdge (h0 h1 m0 m1 : ℝ) : ℝ :=
  let d := ((2 * h0 + h1) * m0 - h0 * m1) / (h0 + h1)
  if SignType.sign d ≠ SignType.sign m0 then 0
  else if SignType.sign m0 ≠ SignType.sign m1 ∧ |d| > 3 * |m0| then 3 * m0
  else d

/-- The slope at an inner node, from the pieces on its left (`h0`, `m0`) and right (`h1`, `m1`). -/
noncomputable def pchipInner (h0 h1 m0 m1 : ℝ) : ℝ :=
  if SignType.sign m0 ≠ SignType.sign m1 ∨ m0 = 0 ∨ m1 = 0 then 0
  else 1 / (((2 * h1 + h0) / m0 + (h1 + 2 * h0) / m1) / ((2 * h1 + h0) + (h1 + 2 * h0)))

/-- The slope at node `i`. With a single piece the interpolant is linear. -/
noncomputable def pchipSlope (n : ℕ) (xs ys : ℕ → ℝ) (i : ℕ) : ℝ :=
  let h := fun j => xs (j + 1) - xs j
  let m := pchipSecant xs ys
  if n = 1 then m 0
  else if i = 0 then pchipEdge (h 0) (h 1) (m 0) (m 1)
  else if i = n then pchipEdge (h (n - 1)) (h (n - 2)) (m (n - 1)) (m (n - 2))
  else pchipInner (h (i - 1)) (h i) (m (i - 1)) (m i)

/-- The cubic with values `y0`, `y1` and slopes `d0`, `d1` at the ends of a piece of length `h`, at
relative position `t`. -/
noncomputable def hermite (h y0 y1 d0 d1 t : ℝ) : ℝ :=
  (2 * t ^ 3 - 3 * t ^ 2 + 1) * y0 + (t ^ 3 - 2 * t ^ 2 + t) * h * d0
    + (3 * t ^ 2 - 2 * t ^ 3) * y1 + (t ^ 3 - t ^ 2) * h * d1

open Classical in
/-- The piece used at `x`: the last of the `n` pieces that starts at or below `x`, else the first. -/
noncomputable def pchipCell (n : ℕ) (xs : ℕ → ℝ) (x : ℝ) : ℕ := Nat.findGreatest (fun i => xs i ≤ x) (n - 1)

/-- `PchipInterpolator(xs, ys, extrapolate=True)(x)`. -/
noncomputable def pchip (n : ℕ) (xs ys : ℕ → ℝ) (x : ℝ) : ℝ :=
  let i := pchipCell n xs x
  hermite (xs (i + 1) - xs i) (ys i) (ys (i + 1)) (pchipSlope n xs ys i) (pchipSlope n xs ys (i + 1))
    ((x - xs i) / (xs (i + 1) - xs i))

end Verif
