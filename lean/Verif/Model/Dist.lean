import Verif.Model.Descriptive

/-! # Model of the distance functions of `pycircstat2/descriptive.py` (lines 738-829, 1411-1513) -/

set_option autoImplicit false

namespace Verif

open Real

/-- `π - |π - |x - y||`, the "geodesic" formula: descriptive.py 1460 (also 776, 826). -/
noncomputable def geodesic (x y : ℝ) : ℝ := π - |π - (|x - y|)|

/-- `circ_dist(x, y, metric)` for one pair of angles: descriptive.py 1441-1469. On arrays numpy
applies it element-wise after broadcasting. -/
noncomputable def circDist (x y : ℝ) (metric : String) : Except PyErr ℝ :=
  if metric = "center" then
    .ok (Complex.arg (Complex.exp (Complex.I * x) / Complex.exp (Complex.I * y)))
  else if metric = "geodesic" then .ok (geodesic x y)
  else if metric = "angularseparation" then .ok (1 - cos (x - y))
  else if metric = "chord" then .ok (sqrt (2 * (1 - cos (x - y))))
  else .error .valueError

/-- `circ_pairdist(x, y, metric)`: descriptive.py 1501-1513, `return_sum=False`: the matrix with
rows indexed by `x`. -/
noncomputable def circPairdist (x y : List ℝ) (metric : String) : Except PyErr (List (List ℝ)) :=
  x.mapM fun a => y.mapM fun b => circDist a b metric

/-- `circ_mean_deviation(alpha, beta)`: descriptive.py 792-829. One entry per element of `beta`;
`none` is the `nan` of averaging an empty `alpha`. -/
noncomputable def circMeanDeviation (alpha beta : List ℝ) : List (Option ℝ) :=
  beta.map fun b => do
    let m ← mean (alpha.map fun a => |π - (|a - b|)|)
    return round5 (π - m)

/-- One chunk of `circ_mean_deviation_chunked`: descriptive.py 776-777. -/
noncomputable def chunkMean (alpha chunk : List ℝ) : List (Option ℝ) :=
  chunk.map fun b => (mean (alpha.map fun a => geodesic a b)).map round5

/-- Slice assignment `result[start : start + len(vals)] = vals`. -/
def writeSlice {α : Type} (result : List α) (start : ℕ) (vals : List α) : List α :=
  result.take start ++ vals ++ result.drop (start + vals.length)

/-- `circ_mean_deviation_chunked(alpha, beta, chunk_size)`: descriptive.py 738-780. `init` is the
uninitialised content of `np.empty(beta.size)`; the loop runs over
`range(0, beta.size, chunk_size)`, which has `⌈beta.size / chunk_size⌉` elements. -/
noncomputable def circMeanDeviationChunked (alpha beta : List ℝ) (chunkSize : ℤ)
    (init : List (Option ℝ)) : Except PyErr (List (Option ℝ)) :=
  if chunkSize ≤ 0 then .error .valueError
  else
    let c := chunkSize.toNat
    let starts := (List.range ((beta.length + c - 1) / c)).map (· * c)
    .ok (starts.foldl (fun result start =>
      let stop := start + c
      let betaChunk := (beta.drop start).take (stop - start)
      writeSlice result start (chunkMean alpha betaChunk)) init)

end Verif
