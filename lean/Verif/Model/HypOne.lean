import Verif.Model.Interval
import Mathlib.Analysis.SpecialFunctions.Gamma.Basic

/-!
# Model of the one-sample tests in `pycircstat2/hypothesis.py`, lines 374-907

Random draws and survival functions of scipy are parameters. Printing is not modelled.
-/

namespace Verif

open Real

set_option autoImplicit false

/-- `(np.count_nonzero(stats >= observed) + 1) / (B + 1)` for the `B` simulated statistics:
hypothesis.py 496 (and 1657, 1758, 1878-1880 with the respective statistics). -/
noncomputable def mcPvalue (stats : List ℝ) (observed : ℝ) : ℝ :=
  ((stats.countP fun s => decide (observed ≤ s) : ℕ) + 1 : ℝ) / ((stats.length : ℝ) + 1)

/-- The weights in effect when `w` may be `None`, with the shape check: hypothesis.py 453-458,
632-637, 717-722. -/
noncomputable def weightsOf (alpha : List ℝ) (w : Option (List ℝ)) : Except PyErr (List ℝ) :=
  match w with
  | none => .ok (ones alpha)
  | some w => if w.length ≠ alpha.length then .error .valueError else .ok w

/-- `RayleighTestResult`. -/
structure RayleighResult where
  r : ℝ
  z : ℝ
  pval : ℝ
  bootstrapPval : Option ℝ

/-- `r` and `n` computed from a sample: hypothesis.py 448-465. A `nan` resultant cannot occur since
the total weight is positive. -/
noncomputable def rayleighSample (alpha w : Option (List ℝ)) : Except PyErr (ℝ × ℤ) :=
  match alpha with
  | none => .error .valueError
  | some a =>
    if a.length = 0 then .error .valueError
    else (weightsOf a w).bind fun w =>
      let nTotal := w.sum
      if nTotal ≤ 0 then .error .valueError
      else if ¬ isclose nTotal (roundEven nTotal) rtolDefault atolDefault then .error .valueError
      else match circR a w with
        | none => .error .valueError
        | some r => .ok (r, roundEven nTotal)

/-- The statistics of `rayleigh_test` once `r` and `n` are known: hypothesis.py 469-498, 513. `draws`
are the rows of `rng.uniform(0, 2π, size=(B, n))`. -/
noncomputable def rayleighOf (r : ℝ) (n : ℤ) (B : ℤ) (draws : List (List ℝ)) :
    Except PyErr RayleighResult :=
  if n ≤ 0 then .error .valueError
  else if ¬ (0 ≤ r ∧ r ≤ 1) then .error .valueError
  else
    let R := n * r
    let z := n * r ^ 2
    let pval := exp (sqrt (1 + 4 * n + 4 * ((n : ℝ) ^ 2 - R ^ 2)) - (1 + 2 * n))
    let boot := if B > 1 then
      some (mcPvalue (draws.map fun u =>
        sqrt ((u.map cos).sum ^ 2 + (u.map sin).sum ^ 2) ^ 2 / n) z)
      else none
    .ok ⟨r, z, pval, boot⟩

/-- `rayleigh_test(alpha, w, r, n, B)`: hypothesis.py 374-513. -/
noncomputable def rayleighTest (alpha w : Option (List ℝ)) (r : Option ℝ) (n : Option ℤ) (B : ℤ)
    (draws : List (List ℝ)) : Except PyErr RayleighResult :=
  if B ≤ 0 then .error .valueError
  else match r with
    | none => (rayleighSample alpha w).bind fun rn => rayleighOf rn.1 rn.2 B draws
    | some r => match n with
      | none => .error .valueError
      | some n => rayleighOf r n B draws

/-- Python `int(x)`: truncation towards zero. -/
noncomputable def pyInt (x : ℝ) : ℤ := if 0 ≤ x then ⌊x⌋ else ⌈x⌉

/-- `VTestResult`; a `nan` mean direction makes all three fields `nan`. -/
structure VResult where
  V : ℝ
  u : ℝ
  pval : ℝ

/-- The statistics of `V_test` once `mean`, `r`, `n` are known: hypothesis.py 648-665; `sf` is
`norm.sf`. -/
noncomputable def vTestOf (angle : ℝ) (mean : Option ℝ) (r : ℝ) (n : ℤ) (sf : ℝ → ℝ) :
    Except PyErr (Option VResult) :=
  if ¬ (0 ≤ r ∧ r ≤ 1) then .error .valueError
  else .ok (mean.map fun m =>
    let R := n * r
    let V := R * cos (angmodB (-π) π (m - angle))
    let u := V * sqrt (2 / n)
    ⟨V, u, sf u⟩)

/-- `V_test` from data: hypothesis.py 627-641. -/
noncomputable def vTestSample (angle : ℝ) (alpha w : Option (List ℝ)) (sf : ℝ → ℝ) :
    Except PyErr (Option VResult) :=
  match alpha with
  | none => .error .valueError
  | some a =>
    if a.length = 0 then .error .valueError
    else (weightsOf a w).bind fun w =>
      let n := pyInt w.sum
      if n ≤ 0 then .error .valueError
      else match circMeanAndR a w with
        | none => .error .valueError
        | some (m, r) => vTestOf angle m r n sf

/-- `V_test(angle, alpha, w, mean, r, n)`: hypothesis.py 574-665. -/
noncomputable def vTest (angle : ℝ) (alpha w : Option (List ℝ)) (mean r : Option ℝ) (n : Option ℤ)
    (sf : ℝ → ℝ) : Except PyErr (Option VResult) :=
  match mean, r, n with
  | some m, some r, some n => if n ≤ 0 then .error .valueError else vTestOf angle (some m) r n sf
  | _, _, _ => vTestSample angle alpha w sf

/-- The decision of `one_sample_test` for an interval: hypothesis.py 725-728; comparisons with `nan`
are false, so a `nan` interval contains nothing. -/
noncomputable def oneSampleReject (angle : ℝ) (ci : Option (ℝ × ℝ)) : Bool :=
  match ci with
  | none => true
  | some (lb, ub) => ! isWithinCircularRange angle lb ub

/-- `one_sample_test(angle, alpha, w, lb, ub)`: hypothesis.py 668-745; returns the decision and the
interval. `chi` is the quantile used by the default confidence interval. -/
noncomputable def oneSampleTest (angle : ℝ) (alpha w : Option (List ℝ)) (lb ub : Option ℝ)
    (chi z : ℝ) (draws : List (List ℝ)) : Except PyErr (Bool × Option (ℝ × ℝ)) :=
  match lb, ub with
  | some lb, some ub => .ok (oneSampleReject angle (some (lb, ub)), some (lb, ub))
  | _, _ => match alpha with
    | none => .error .valueError
    | some a =>
      if a.length = 0 then .error .valueError
      else (weightsOf a w).bind fun w =>
        (circMeanCi (some a) (some w) none none none 0.95 chi z draws "approximate").map fun ci =>
          (oneSampleReject angle ci, ci)

/-- `right` for one scanned line: hypothesis.py 796-801. -/
noncomputable def omnibusRight (alpha : List ℝ) (line : ℝ) : ℤ :=
  (alpha.length : ℤ) - (alpha.countP fun a =>
    decide (0 < angmod2pi (line - a)) && decide (angmod2pi (line - a) < π) : ℕ)

/-- `np.min` of an array of integers (numpy raises on an empty one: `none`). -/
def minZ : List ℤ → Option ℤ
  | [] => none
  | x :: xs => some (xs.foldl min x)

/-- `OmnibusTestResult`; `A = inf` is `none`. -/
structure OmnibusResult where
  A : Option ℝ
  pval : ℝ
  m : ℤ

/-- The p value part of `omnibus_test`: hypothesis.py 829-843. -/
noncomputable def omnibusOf (n m : ℤ) : OmnibusResult :=
  let denom := n - 2 * m
  if denom ≤ 0 then ⟨none, 0, m⟩
  else
    let logp := log denom + log |Real.Gamma (n + 1)| - log |Real.Gamma (m + 1)|
      - log |Real.Gamma (n - m + 1)| - (n - 1) * log 2
    ⟨some (π * sqrt n / (2 * denom)), exp logp, m⟩

/-- `omnibus_test(alpha, scale)`: hypothesis.py 748-853. -/
noncomputable def omnibusTest (alpha : List ℝ) (scale : ℤ) : Except PyErr OmnibusResult :=
  if scale ≤ 0 then .error .valueError
  else if alpha.length = 0 then .error .valueError
  else
    let k := scale.toNat * 360
    let lines := (List.range k).map fun i : ℕ => (i : ℝ) * (π / k)
    match minZ (lines.map (omnibusRight alpha)) with
    | none => .error .valueError
    | some m => .ok (omnibusOf alpha.length m)

/-- `scipy.stats.binomtest(k, n, p=0.5).pvalue`: the total probability of the outcomes that are not
more likely than `k` (scipy's relative tolerance 1e-7 in that comparison is dropped). -/
noncomputable def binomTest (k n : ℕ) : ℝ :=
  (∑ j ∈ (Finset.range (n + 1)).filter (fun j => n.choose j ≤ n.choose k), (n.choose j : ℝ)) / 2 ^ n

/-- `batschelet_test(angle, alpha)`: hypothesis.py 856-907; returns `(C, pval)`. -/
noncomputable def batscheletTest (angle : ℝ) (alpha : List ℝ) : Except PyErr (ℕ × ℝ) :=
  if alpha.length = 0 then .error .valueError
  else
    let m := alpha.countP fun a =>
      decide (0 < angmod2pi ((angle + 0.5 * π) - a)) &&
        decide (angmod2pi ((angle + 0.5 * π) - a) < π)
    let C := alpha.length - m
    .ok (C, binomTest C alpha.length)

end Verif
