import Verif.Model.Dist

/-! # Model of the circular median, `pycircstat2/descriptive.py` lines 529-735

A Python result that is `nan`, a number, or an array of numbers is modelled by
`Option (List ℝ)`: `none` is `nan`, a number is a one-element list. -/

set_option autoImplicit false

namespace Verif

open Real

/-- `alpha[np.where(score == score.min())[0]]` followed by the common tail of the two ungrouped
median functions: `nan` when every observation ties, otherwise the tied observations
(descriptive.py 694-706 and 723-735). `score.min()` of an empty array is a `ValueError`. -/
noncomputable def tiedMinima (alpha score : List ℝ) : Except PyErr (Option (List ℝ)) :=
  match minL score with
  | none => .error .valueError
  | some m =>
    let cands := ((alpha.zip score).filter fun x => decide (x.2 = m)).map Prod.fst
    if cands.length = alpha.length then .ok none else .ok (some cands)

/-- `angdist`: descriptive.py 717-721. `init` is the uninitialised array of the chunked computation. -/
noncomputable def pairDeviation (alpha : List ℝ) (init : List (Option ℝ)) :
    Except PyErr (List (Option ℝ)) :=
  if alpha.length > 10000 then circMeanDeviationChunked alpha alpha 1000 init
  else .ok (circMeanDeviation alpha alpha)

/-- `_circ_median_mean_deviation(alpha)`: descriptive.py 709-735. A `nan` deviation cannot occur: it
would need `alpha` to be empty and then there are no deviations at all. -/
noncomputable def circMedianDeviation (alpha : List ℝ) (init : List (Option ℝ)) :
    Except PyErr (Option (List ℝ)) :=
  (pairDeviation alpha init).bind fun angdist =>
    match (angdist.mapM id : Option (List ℝ)) with
    | none => .ok none
    | some score => tiedMinima alpha score

/-- `alpha_rotated[i, j]` of `_circ_median_count`: descriptive.py 678. -/
noncomputable def countRotated (a b : ℝ) : ℝ := round5 (angmod2pi (a - b))

/-- Points strictly on the right of the diameter through `b`: descriptive.py 681. -/
noncomputable def countRight (alpha : List ℝ) (b : ℝ) : ℕ :=
  alpha.countP fun a => decide (0 < countRotated a b) && decide (countRotated a b < round5 π)

/-- Points on the diameter through `b`: descriptive.py 685-687. -/
noncomputable def countExact (alpha : List ℝ) (b : ℝ) : ℕ :=
  alpha.countP fun a => decide (isclose (countRotated a b) 0 rtolDefault atolDefault) ||
    decide (isclose (countRotated a b) (round5 π) rtolDefault atolDefault)

/-- `diff[j]`: descriptive.py 689-693. -/
noncomputable def countDiff (alpha : List ℝ) (b : ℝ) : ℝ :=
  let right : ℝ := countRight alpha b
  let exact : ℝ := countExact alpha b
  let left := alpha.length - right - 0.5 * exact
  |right + 0.5 * exact - left|

/-- `_circ_median_count(alpha)`: descriptive.py 676-706. -/
noncomputable def circMedianCount (alpha : List ℝ) : Except PyErr (Option (List ℝ)) :=
  tiedMinima alpha (alpha.map (countDiff alpha))

/-- `halfcircle_left` of `_circ_median_grouped`, given the upper bin bounds `ub`: descriptive.py
628-637. `np.roll(x, -k)` is `x.rotate k`. -/
noncomputable def groupedLeft (ub w : List ℝ) : List ℝ :=
  let n := w.sum
  let wr := w.rotate 1
  let right := ub.map fun b =>
    (((ub.zip wr).filter fun x => decide (0 ≤ angmod2pi (x.1 - b)) &&
      decide (angmod2pi (x.1 - b) ≤ round5 π)).map Prod.snd).sum
  let left := right.map fun h => n - h
  if ub.length % 2 ≠ 0 then
    List.zipWith (fun l o => l - o / 2) left (w.rotate (w.length - 2))
  else left

/-- Each bin's upper bound together with its row of `halfcircle_range`: descriptive.py 641-643. -/
noncomputable def groupedRanges (ub left : List ℝ) : List (ℝ × ℝ × ℝ) :=
  ub.zip (List.zipWith (fun a b => (round5 a, round5 b)) left (left.rotate 1))

/-- Selection of the bin(s) that contain the half frequency: descriptive.py 644-671. -/
noncomputable def groupedPick (ranges : List (ℝ × ℝ × ℝ)) (half binSize : ℝ) :
    Except PyErr (Option (List ℝ)) :=
  let idx := ranges.filter fun x => decide (x.2.1 ≤ half) && decide (half ≤ x.2.2)
  if idx.length = ranges.length then .ok none
  else match idx with
    | [x] =>
      let lo := min x.2.1 x.2.2
      let hi := max x.2.1 x.2.2
      .ok ((pydiv (half - lo) (hi - lo)).map fun ratio => [x.1 + binSize * ratio])
    | _ => match idx.filter fun x => decide (x.2.1 ≠ x.2.2) with
      | x :: y :: _ =>
        let lower := x.1 + binSize
        let upper := y.1
        if isclose (upper - lower) π rtolDefault atolDefault then
          .ok (some [lower - binSize, upper + binSize])
        else .ok (some [lower, upper])
      | _ => .error .indexError

/-- `_circ_median_grouped(alpha, w)`: descriptive.py 618-673. -/
noncomputable def circMedianGrouped (alpha w : List ℝ) : Except PyErr (Option (List ℝ)) :=
  match minL (diff alpha) with
  | none => .error .valueError
  | some binSize =>
    let ub := alpha.map (· + binSize / 2)
    groupedPick (groupedRanges ub (groupedLeft ub w)) (round5 (w.sum / 2)) binSize

/-- `np.unique` of a one-dimensional array: sorted, without repetitions. -/
noncomputable def npUnique (l : List ℝ) : List ℝ := (sortR l).dedup

/-- `np.isclose(circ_r(alpha, w), 1.0, atol=1e-12)` (with the default `rtol=1e-5`):
descriptive.py 580. -/
noncomputable def allCoincide (alpha w : List ℝ) : Bool :=
  match circR alpha w with
  | none => false
  | some r => decide (isclose r 1 rtolDefault (1 / 10 ^ 12))

/-- Choice of the median method: descriptive.py 585-601. -/
noncomputable def medianCandidates (alpha w : List ℝ) (method : String) (init : List (Option ℝ)) :
    Except PyErr (Option (List ℝ)) :=
  if ¬ ∀ x ∈ w, x = 1 then circMedianGrouped alpha w
  else if method = "count" then circMedianCount alpha
  else if method = "deviation" then circMedianDeviation alpha init
  else if method = "none" then .ok none
  else .error .valueError

/-- Averaging of several candidates: descriptive.py 603-613. -/
noncomputable def averageMedian (median : Option (List ℝ)) (returnAverage : Bool)
    (averageMethod : String) : Except PyErr (Option (List ℝ)) :=
  if returnAverage then
    if averageMethod = "all" then
      .ok (median.bind fun l => (circMean l (ones l)).map fun m => [m])
    else if averageMethod = "unique" then
      .ok (median.bind fun l => (circMean (npUnique l) (ones (npUnique l))).map fun m => [m])
    else .error .valueError
  else .ok median

/-- `circ_median(alpha, w, method, return_average, average_method)`: descriptive.py 529-615.
`alpha[0]` is only reached with at least one angle (`circ_r` of an empty sample is `nan`). -/
noncomputable def circMedian (alpha w : List ℝ) (method : String) (returnAverage : Bool)
    (averageMethod : String) (init : List (Option ℝ)) : Except PyErr (Option (List ℝ)) :=
  if allCoincide alpha w then
    match alpha with
    | [] => .error .indexError
    | a :: _ => .ok (some [a])
  else
    (medianCandidates alpha w method init).bind fun median =>
      (averageMedian median returnAverage averageMethod).map fun median =>
        median.map fun l => l.map angmod2pi

end Verif
