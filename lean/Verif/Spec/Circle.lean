import Mathlib.Analysis.SpecialFunctions.Trigonometric.Basic

/-!
# Specification vocabulary for angles

Nothing here refers to the model.
-/

namespace Verif.Spec

open Real

/-- `a` and `b` differ by a whole number of periods `p`. -/
def CongMod (p a b : ℝ) : Prop := ∃ k : ℤ, a = b + k * p

/-- `a` and `b` are the same direction: they differ by a whole number of turns. -/
abbrev SameDir (a b : ℝ) : Prop := CongMod (2 * π) a b

/-- `d` is the arc length between directions `a` and `b`: the least absolute difference over all
ways of adding whole turns. -/
def IsArcDist (d a b : ℝ) : Prop :=
  (∃ k : ℤ, d = |a - b + k * (2 * π)|) ∧ ∀ k : ℤ, d ≤ |a - b + k * (2 * π)|

/-- `v` is met when walking counter-clockwise from `lb` to `ub` (at most one turn):
`ub` is `lb + L` with `0 ≤ L < 2π`, and `v` is `lb + t` with `0 ≤ t ≤ L`. -/
def OnArc (v lb ub : ℝ) : Prop :=
  ∃ L t : ℝ, 0 ≤ L ∧ L < 2 * π ∧ SameDir ub (lb + L) ∧ 0 ≤ t ∧ t ≤ L ∧ SameDir v (lb + t)

end Verif.Spec

namespace Verif.Spec

open Real

/-- The units the library knows, with the number of units in a full turn. -/
def UnitCycle (unit : String) (cycle : ℝ) : Prop :=
  (unit = "degree" ∧ cycle = 360) ∨ (unit = "radian" ∧ cycle = 2 * π) ∨
    (unit = "hour" ∧ cycle = 24)

end Verif.Spec

namespace Verif.Spec

open Real

/-- `(lb, ub)`, both in `[0, 2π)`, is the interval of half width `d` around direction `m`, and `m`
is on the arc from `lb` to `ub`. -/
structure IsIntervalAround (m d lb ub : ℝ) : Prop where
  lb_mem : 0 ≤ lb ∧ lb < 2 * π
  ub_mem : 0 ≤ ub ∧ ub < 2 * π
  lower : SameDir lb (m - d)
  upper : SameDir ub (m + d)
  contains : OnArc m lb ub

end Verif.Spec

namespace Verif.Spec

open Real

/-- `v` is met when walking counter-clockwise from direction `a` through an arc of length `L`. -/
def OnArcFrom (v a L : ℝ) : Prop := ∃ t : ℝ, 0 ≤ t ∧ t ≤ L ∧ SameDir v (a + t)

open Classical in
/-- Number of entries of a list of angles on the arc of length `L` that starts at `a`. -/
noncomputable def countOnArc (a L : ℝ) (l : List ℝ) : ℕ := l.countP fun v => decide (OnArcFrom v a L)

end Verif.Spec
