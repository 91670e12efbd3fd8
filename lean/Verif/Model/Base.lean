import Verif.Model.HypOne
import Verif.Model.Range

/-!
# Model of the classes `Circular` and `Axial`, `pycircstat2/base.py`

The mixtures (`n_clusters_max > 1`), `__repr__`, `summary` and `plot` are not modelled. Normal and chi-square
quantiles, the random draws of the bootstrap and the content of uninitialised arrays are parameters.
-/

namespace Verif

open Real

set_option autoImplicit false

/-- The full cycle in effect: base.py 161-174. -/
noncomputable def fullCycleOf (unit : String) (fullCycle : Option ℝ) : Except PyErr ℝ :=
  match fullCycle with
  | some k => .ok k
  | none =>
    if unit = "degree" then .ok 360
    else if unit = "radian" then .ok (2 * π)
    else if unit = "hour" then .ok 24
    else .error .valueError

/-- `self.alpha`: base.py 189. -/
noncomputable def circularAlpha (data : List ℝ) (k : ℝ) (rotate : Option ℝ) : Except PyErr (List ℝ) :=
  let a := data.map fun x => data2rad x k
  match rotate with
  | none => .ok a
  | some t => rotateData a t "radian"

/-- `np.histogram(alpha, bins=edges)[0]`: one count per pair of neighbouring edges; the bins are half open, the
last one is closed. `edges` increase. -/
noncomputable def histCounts (alpha : List ℝ) : List ℝ → List ℝ
  | [] => []
  | [_] => []
  | [lo, hi] => [((alpha.countP fun a => decide (lo ≤ a) && decide (a ≤ hi) : ℕ) : ℝ)]
  | lo :: hi :: rest =>
    ((alpha.countP fun a => decide (lo ≤ a) && decide (a < hi) : ℕ) : ℝ) :: histCounts alpha (hi :: rest)

/-- The edges that `np.histogram(alpha, bins=m, range=(0, 2π))` uses for a number of bins. -/
noncomputable def histEdges (m : ℕ) : List ℝ := (List.range (m + 1)).map fun i : ℕ => (i : ℝ) * (2 * π / m)

/-- The data as the constructor prepares them: angles, weights, whether grouped, and the bin size. -/
structure Prepared where
  alpha : List ℝ
  w : List ℝ
  grouped : Bool
  binSize : ℝ

/-- Preprocessing: base.py 192-219. `edges` are the bin edges (for an integer `bins` those of `histEdges`). The second
assertion, on `np.arange(0, 2π, 2π/len(w))`, holds in exact arithmetic. `np.diff(alpha).min()` needs two angles. -/
noncomputable def prepare (alpha : List ℝ) (w edges : Option (List ℝ)) : Except PyErr Prepared :=
  match edges, w with
  | none, none => .ok ⟨alpha, ones alpha, false, 0⟩
  | none, some w =>
    if w.length ≠ alpha.length then .error .assertionError
    else match minL (diff alpha) with
      | none => .error .valueError
      | some b => .ok ⟨alpha, w, true, b⟩
  | some edges, _ =>
    let centers := List.zipWith (fun lo hi => 0.5 * (lo + hi)) edges edges.tail
    match minL (diff centers) with
    | none => .error .valueError
    | some b => .ok ⟨centers, histCounts alpha edges, true, b⟩

/-- The method of the confidence interval of the mean: base.py 242-257; `kwargs` is `kwargs_mean_ci` (`none`: not
given; `some m`: a dictionary whose entry `"method"` is `m`). -/
noncomputable def meanCiMethod (kwargs : Option (Option String)) (pval : ℝ) (n : ℤ) : Option String :=
  match kwargs with
  | none =>
    if pval < 0.05 ∧ 8 ≤ n ∧ n < 25 then some "bootstrap"
    else if pval < 0.05 ∧ 25 ≤ n then some "dispersion"
    else none
  | some m => some (m.getD "bootstrap")

/-- The median options: base.py 177-184. -/
structure MedianOpts where
  method : String := "deviation"
  returnAverage : Bool := true
  averageMethod : String := "all"

/-- The attributes of a `Circular` object. -/
structure CircularObj where
  fullCycle : ℝ
  alpha : List ℝ
  w : List ℝ
  grouped : Bool
  binSize : ℝ
  n : ℤ
  mean : Option ℝ
  r : ℝ
  pval : ℝ
  R : ℝ
  kappa : ℝ
  meanCiMethod : Option String
  meanCi : Option (ℝ × ℝ)
  s : Option ℝ
  s0 : Option ℝ
  median : Option (List ℝ)
  medianCi : Option (Option (ℝ × ℝ) × ℝ)
  skewness : Option ℝ
  kurtosis : Option ℝ

/-- The parameters standing for scipy and random draws: the chi-square and normal quantiles of the interval of the
mean, the normal quantile of the interval of the median, the resamples, an uninitialised array. -/
structure Env where
  chi : ℝ
  z : ℝ
  draws : List (List ℝ)
  init : List (Option ℝ)

/-- The interval of the mean: base.py 259-270. -/
noncomputable def circularMeanCi (p : Prepared) (method : Option String) (pval : ℝ) (mean : Option ℝ) (r : ℝ) (n : ℤ)
    (e : Env) : Except PyErr (Option (ℝ × ℝ)) :=
  match method with
  | none => .ok none
  | some m =>
    if pval < 0.05 then
      circMeanCi (some p.alpha) (some p.w) mean (some r) (some (n : ℝ)) 0.95 e.chi e.z e.draws m
    else .ok none

/-- The interval of the median: base.py 292-295. The truth value of an array of several medians is a `ValueError`. -/
noncomputable def circularMedianCi (p : Prepared) (median : Option (List ℝ)) (e : Env) :
    Except PyErr (Option (Option (ℝ × ℝ) × ℝ)) :=
  if p.grouped then .ok none
  else match median with
    | none => .ok none
    | some [m] => (circMedianCi m p.alpha 0.95 e.z).map some
    | some _ => .error .valueError

/-- Everything after the preprocessing: base.py 221-298. -/
noncomputable def circularOf (k : ℝ) (p : Prepared) (kwargsMeanCi : Option (Option String)) (opts : MedianOpts)
    (e : Env) : Except PyErr CircularObj :=
  let n := pyInt p.w.sum
  match circMeanAndR p.alpha p.w with
  | none => .error .valueError
  | some (mean, r) =>
    (rayleighTest none none (some r) (some n) 1 []).bind fun ray =>
      let method := meanCiMethod kwargsMeanCi ray.pval n
      (circularMeanCi p method ray.pval mean r n e).bind fun ci =>
        (angularStd none none (some r) (some p.binSize)).bind fun s =>
          (circStd none none (some r) (some p.binSize)).bind fun s0 =>
            (circMedian p.alpha p.w opts.method opts.returnAverage opts.averageMethod e.init).bind fun median =>
              (circularMedianCi p median e).map fun medianCi =>
                { fullCycle := k, alpha := p.alpha, w := p.w, grouped := p.grouped, binSize := p.binSize, n := n,
                  mean := mean, r := r, pval := ray.pval, R := n * r, kappa := circKappa r (some n.toNat),
                  meanCiMethod := method, meanCi := ci, s := s, s0 := s0, median := median, medianCi := medianCi,
                  skewness := circSkewness p.alpha p.w, kurtosis := circKurtosis p.alpha p.w }

/-- `Circular(data, w, bins, unit, full_cycle, rotate, kwargs_median=…, kwargs_mean_ci=…)`: base.py 147-314. -/
noncomputable def circular (data : List ℝ) (w edges : Option (List ℝ)) (unit : String) (fullCycle rotate : Option ℝ)
    (kwargsMeanCi : Option (Option String)) (opts : MedianOpts) (e : Env) : Except PyErr CircularObj :=
  (fullCycleOf unit fullCycle).bind fun k =>
    (circularAlpha data k rotate).bind fun alpha =>
      (prepare alpha w edges).bind fun p => circularOf k p kwargsMeanCi opts e

/-- The modulus of the doubling: base.py 487-494; `none % …` is a `TypeError`. -/
noncomputable def axialModulus (unit : String) (fullCycle : Option ℝ) : Except PyErr ℝ :=
  if unit = "degree" then .ok 360
  else if unit = "radian" then .ok (2 * π)
  else if unit = "hour" then .ok 24
  else match fullCycle with
    | some k => .ok k
    | none => .error .typeError

/-- An `Axial` object: the attributes of the base class (for the doubled data), with the changed ones. -/
structure AxialObj where
  base : CircularObj
  dataDouble : List ℝ
  alphaDouble : List ℝ
  alpha : List ℝ
  mean : Option ℝ
  meanCi : Option (ℝ × ℝ)

/-- `Axial(data, w, bins, unit, full_cycle, …)`: base.py 472-513. -/
noncomputable def axial (data : List ℝ) (w edges : Option (List ℝ)) (unit : String) (fullCycle rotate : Option ℝ)
    (kwargsMeanCi : Option (Option String)) (opts : MedianOpts) (e : Env) : Except PyErr AxialObj :=
  (axialModulus unit fullCycle).bind fun m =>
    let dd := data.map fun x => pymod (2 * x) m
    (circular dd w edges unit fullCycle rotate kwargsMeanCi opts e).map fun c =>
      { base := c, dataDouble := dd, alphaDouble := c.alpha, alpha := data.map fun x => data2rad x c.fullCycle,
        mean := c.mean.map (· / 2), meanCi := c.meanCi.map fun q => (q.1 / 2, q.2 / 2) }

end Verif
