import Verif.Model.Descriptive

/-!
# Model of the confidence intervals in `pycircstat2/descriptive.py`, lines 832-1344 and 1588-1632

Quantiles of the normal and chi-square distributions and the random draws of the bootstrap are
parameters.
-/

namespace Verif

open Real

set_option autoImplicit false

/-- `np.arcsin`: `nan` outside `[-1, 1]`. -/
noncomputable def pyarcsin (x : ℝ) : Option ℝ := if x < -1 ∨ 1 < x then none else some (arcsin x)

/-- `np.arccos`: `nan` outside `[-1, 1]`. -/
noncomputable def pyarccos (x : ℝ) : Option ℝ := if x < -1 ∨ 1 < x then none else some (arccos x)

/-- `if not is_within_circular_range(mean, lb, ub): lb, ub = ub, lb`: descriptive.py 995-996,
1088-1089, 1157-1158, 1295-1296. -/
noncomputable def swapIfOutside (m lb ub : ℝ) : ℝ × ℝ :=
  if isWithinCircularRange m lb ub then (lb, ub) else (ub, lb)

/-- `(mean - d, mean + d)` after the swap check; `nan` propagates. -/
noncomputable def intervalAround (mean d : Option ℝ) : Option (ℝ × ℝ) :=
  mean.bind fun m => d.map fun d => swapIfOutside m (m - d) (m + d)

/-- `inner` of `_circ_mean_ci_dispersion`, for a finite dispersion: descriptive.py 979-981. -/
noncomputable def dispersionInner (delta n z : ℝ) : Option ℝ :=
  (pydiv delta n).bind fun q => (pysqrt q).map fun s => s * z

/-- The dispersion is `+inf` (rather than `nan`): `0 < 1 - r2` is divided by `r1 = 0`. -/
noncomputable def dispersionIsInf (alpha w : List ℝ) : Bool :=
  match circMoment alpha w 1 none false, circMoment alpha w 2 none false with
  | some m1, some m2 => decide (‖m1‖ = 0) && decide (0 < 1 - ‖m2‖)
  | _, _ => false

/-- `_circ_mean_ci_dispersion(alpha, w, mean, ci)`: descriptive.py 937-1000; `z` is
`norm.ppf(1 - 0.5*(1 - ci))`. -/
noncomputable def ciDispersion (alpha w : List ℝ) (mean : Option ℝ) (z : ℝ) :
    Except PyErr (Option (ℝ × ℝ)) :=
  let mean := match mean with
    | some m => some m
    | none => circMean alpha w
  if w.sum < 25 then .error .valueError
  else match circDispersion alpha w none with
    | none => if dispersionIsInf alpha w ∧ 0 < z then .error .valueError else .ok none
    | some delta =>
      match dispersionInner delta w.sum z with
      | none => .ok none
      | some inner =>
        if 1 ≤ inner then .error .valueError
        else .ok (intervalAround mean (pyarcsin inner))

/-- `inner` of `_circ_mean_ci_approximate`: descriptive.py 1068-1081. -/
noncomputable def approximateInner (r n chi : ℝ) : Option ℝ :=
  let R := n * r
  if r ≤ 0.9 then
    (pydiv (2 * n * (2 * R ^ 2 - n * chi)) (4 * n - chi)).bind fun q =>
      (pysqrt q).bind fun s => pydiv s R
  else
    (pysqrt (n ^ 2 - (n ^ 2 - R ^ 2) * exp (chi / n))).bind fun s => pydiv s R

/-- The computation of `_circ_mean_ci_approximate` once mean, r and n are known: descriptive.py
1051-1091; `chi` is `chi2.isf(1 - ci, 1)`, a non-negative number. -/
noncomputable def ciApproximateOf (mean : Option ℝ) (r n chi : ℝ) :
    Except PyErr (Option (ℝ × ℝ)) :=
  if ¬ 8 ≤ n then .error .valueError
  else if r < sqrt (chi / (2 * n)) then .error .valueError
  else .ok (intervalAround mean ((approximateInner r n chi).bind pyarccos))

/-- `_circ_mean_ci_approximate(alpha, w, mean, r, n, ci)`: descriptive.py 1003-1091. A `nan`
resultant (no data) is caught by the `n ≥ 8` check because then `n = 0`. -/
noncomputable def ciApproximate (alpha w : Option (List ℝ)) (mean r n : Option ℝ) (chi : ℝ) :
    Except PyErr (Option (ℝ × ℝ)) :=
  match mean, r, n with
  | some m, some r, some n => ciApproximateOf (some m) r n chi
  | some _, some _, none => .error .valueError
  | _, _, _ => match alpha with
    | none => .error .valueError
    | some a =>
      let w := w.getD (ones a)
      match circMeanAndR a w with
      | none => .error .valueError
      | some (m, r) => ciApproximateOf m r w.sum chi

/-- `compute_hdi(samples, ci)`: window size, descriptive.py 1614-1615. -/
noncomputable def hdiWindow (n : ℕ) (ci : ℝ) : ℕ := min (max 1 ⌊ci * n⌋₊) n

/-- One step of the loop of `compute_hdi`, descriptive.py 1623-1630. The state is
`(best_width, best_lower, best_upper)`; `best_width = inf` is `none`. Indices are in range. -/
noncomputable def hdiStep (sorted extended : List ℝ) (k : ℕ)
    (st : Option ℝ × ℝ × ℝ) (start : ℕ) : Option ℝ × ℝ × ℝ :=
  let upper := extended.getD (start + k - 1) 0
  let lower := sorted.getD start 0
  let width := upper - lower
  if (match st.1 with
    | none => true
    | some b => decide (width < b)) then (some width, lower, upper) else st

/-- `compute_hdi(samples, ci)`: descriptive.py 1588-1632. -/
noncomputable def computeHdi (samples : List ℝ) (ci : ℝ) : Except PyErr (ℝ × ℝ) :=
  if ¬ (0 < ci ∧ ci < 1) then .error .valueError
  else
    let sorted := sortR (samples.map angmod2pi)
    let n := sorted.length
    if n = 0 then .error .valueError
    else
      let k := hdiWindow n ci
      let extended := sorted ++ sorted.map (· + 2 * π)
      let s0 := sorted.getD 0 0
      let st := (List.range n).foldl (hdiStep sorted extended k) (none, s0, s0)
      .ok (angmod2pi st.2.1, angmod2pi st.2.2)

/-- Means, variances and covariance of the cosines and sines of a sample: descriptive.py 1124-1132
and 1170-1180. Returns `(z1, z2, u11, u22, u12)`; the sample is not empty. -/
noncomputable def covTrig (theta : List ℝ) : ℝ × ℝ × ℝ × ℝ × ℝ :=
  let n : ℝ := theta.length
  let z1 := (theta.map cos).sum / n
  let z2 := (theta.map sin).sum / n
  let u11 := (theta.map fun t => (cos t - z1) ^ 2).sum / n
  let u22 := (theta.map fun t => (sin t - z2) ^ 2).sum / n
  let u12 := (theta.map fun t => (cos t - z1) * (sin t - z2)).sum / n
  (z1, z2, u11, u22, u12)

/-- `beta_param`: descriptive.py 1134-1138 and 1183-1187 (the parenthesisation of the discriminant
is that of the code). -/
noncomputable def betaParam (u11 u22 u12 : ℝ) : ℝ :=
  if isclose u12 0 rtolDefault atolDefault then 0
  else (u11 - u22) / (2 * u12) - sqrt ((u11 - u22) ^ 2 / (4 * u12 ^ 2 + 1))

/-- The matrix `[[v11, v12], [v12, v22]]` built from `beta` and `t1`, `t2`: descriptive.py
1143-1146 and 1198-1202. -/
noncomputable def rotMatrix (beta t1 t2 : ℝ) : ℝ × ℝ × ℝ :=
  ((beta ^ 2 * t1 + t2) / (1 + beta ^ 2), (t1 + beta ^ 2 * t2) / (1 + beta ^ 2),
    beta * (t1 - t2) / (1 + beta ^ 2))

/-- `v0` of the original sample, `(v11, v22, v12)`: descriptive.py 1140-1146. -/
noncomputable def v0Matrix (u11 u22 u12 : ℝ) : ℝ × ℝ × ℝ :=
  let beta := betaParam u11 u22 u12
  let denom := sqrt (1 + beta ^ 2)
  rotMatrix beta
    (sqrt (max (beta ^ 2 * u11 + 2 * beta * u12 + u22) 0) / denom)
    (sqrt (max (u11 - 2 * beta * u12 + beta ^ 2 * u22) 0) / denom)

/-- `wB` of a resample, `(w11, w22, w12)`: descriptive.py 1183-1202. -/
noncomputable def wBMatrix (u11 u22 u12 : ℝ) : ℝ × ℝ × ℝ :=
  let beta := betaParam u11 u22 u12
  let denom := sqrt (1 + beta ^ 2)
  rotMatrix beta
    (denom / sqrt (max (beta ^ 2 * u11 + 2 * beta * u12 + u22) (1 / 10 ^ 15)))
    (denom / sqrt (max (u11 - 2 * beta * u12 + beta ^ 2 * u22) (1 / 10 ^ 15)))

/-- `_circ_mean_resample(alpha, z0, v0)`: descriptive.py 1163-1214; `theta` is the outcome of
`np.random.choice(alpha_arr, alpha_arr.size, replace=True)`. -/
noncomputable def circMeanResample (theta : List ℝ) (z0 : ℝ × ℝ) (v0 : ℝ × ℝ × ℝ) :
    Except PyErr ℝ :=
  let (z1, z2, u11, u22, u12) := covTrig theta
  let (v11, v22, v12) := v0
  let (w11, w22, w12) := wBMatrix u11 u22 u12
  let d1 := z1 - z0.1
  let d2 := z2 - z0.2
  let e1 := w11 * d1 + w12 * d2
  let e2 := w12 * d1 + w22 * d2
  let C := z0.1 + (v11 * e1 + v12 * e2)
  let S := z0.2 + (v12 * e1 + v22 * e2)
  let norm := sqrt (C ^ 2 + S ^ 2)
  if isclose norm 0 rtolDefault atolDefault then .error .valueError
  else .ok (angmod2pi (arctan2 (S / norm) (C / norm)))

/-- The last part of `_circ_mean_ci_bootstrap`, given the replicates: descriptive.py 1153-1160. A
`nan` mean is never inside the range, so the end points are then swapped. -/
noncomputable def bootstrapInterval (samples : List ℝ) (ci : ℝ) : Except PyErr (ℝ × ℝ) :=
  (computeHdi samples ci).map fun h =>
    match circMean samples (ones samples) with
    | none => (h.2, h.1)
    | some m => swapIfOutside m h.1 h.2

/-- `_circ_mean_ci_bootstrap(alpha, B, ci)`: descriptive.py 1094-1160; `draws` are the `B` outcomes
of `np.random.choice`. -/
noncomputable def ciBootstrap (alpha : List ℝ) (draws : List (List ℝ)) (ci : ℝ) :
    Except PyErr (ℝ × ℝ) :=
  if draws.length = 0 then .error .valueError
  else match circR alpha (ones alpha) with
    | none => .error .valueError
    | some r =>
      if 0.05 < exp (-(alpha.length * r ^ 2)) then .error .valueError
      else
        let (z1, z2, u11, u22, u12) := covTrig alpha
        (draws.mapM fun d => circMeanResample d (z1, z2) (v0Matrix u11 u22 u12)).bind fun s =>
          bootstrapInterval s ci

/-- Method dispatch of `circ_mean_ci`: descriptive.py 912-931. -/
noncomputable def circMeanCiRaw (alpha w : Option (List ℝ)) (mean r n : Option ℝ) (ci chi z : ℝ)
    (draws : List (List ℝ)) (method : String) : Except PyErr (Option (ℝ × ℝ)) :=
  if method = "approximate" then ciApproximate alpha w mean r n chi
  else match alpha with
    | none => .error .valueError
    | some a =>
      if method = "bootstrap" then (ciBootstrap a draws ci).map some
      else if method = "dispersion" then ciDispersion a (w.getD (ones a)) mean z
      else .error .valueError

/-- `circ_mean_ci`: descriptive.py 832-934. -/
noncomputable def circMeanCi (alpha w : Option (List ℝ)) (mean r n : Option ℝ) (ci chi z : ℝ)
    (draws : List (List ℝ)) (method : String) : Except PyErr (Option (ℝ × ℝ)) :=
  (circMeanCiRaw alpha w mean r n ci chi z draws method).map
    (Option.map fun p => (angmod2pi p.1, angmod2pi p.2))

/-- Python list indexing with negative indices. -/
def pyIndex (l : List ℝ) (i : ℤ) : Except PyErr ℝ :=
  if 0 ≤ i then
    match l[i.toNat]? with
    | some x => .ok x
    | none => .error .indexError
  else if -(l.length : ℤ) ≤ i then
    match l[(l.length + i).toNat]? with
    | some x => .ok x
    | none => .error .indexError
  else .error .indexError

/-- `idx_median`: descriptive.py 1274-1280. -/
noncomputable def idxMedian (alpha : List ℝ) (median : ℝ) : ℤ :=
  match ((List.range alpha.length).filter fun i =>
      decide (round5 (alpha.getD i 0) < round5 median)).getLast? with
  | none => alpha.length - 1
  | some i => i

/-- `idx_lb` and `idx_ub` before wrapping: descriptive.py 1282-1285. -/
noncomputable def medianCiIndices (alpha : List ℝ) (median : ℝ) (offset : ℤ) : ℤ × ℤ :=
  let i := idxMedian alpha median
  (i - offset + 1,
    if round5 median ∈ alpha.map round5 then i + offset + 1 else i + offset)

/-- The branch `n > 15` of `circ_median_ci` on sorted data: descriptive.py 1282-1296. -/
noncomputable def medianCiLarge (alpha : List ℝ) (median : ℝ) (offset : ℤ) :
    Except PyErr (ℝ × ℝ) :=
  let n : ℤ := alpha.length
  let (lb, ub) := medianCiIndices alpha median offset
  let ub := if n < ub then ub - n else ub
  let lb := if lb < 0 then n + lb else lb
  (pyIndex alpha lb).bind fun lower => (pyIndex alpha ub).map fun upper =>
    swapIfOutside median lower upper

/-- The table for `3 ≤ n ≤ 15`: positions of the end points and the nominal level, descriptive.py
1302-1340. -/
noncomputable def medianCiTable : ℕ → Option (ℕ × ℕ × ℝ)
  | 3 => some (0, 2, 0.75)
  | 4 => some (0, 3, 0.875)
  | 5 => some (0, 4, 0.937)
  | 6 => some (0, 5, 0.97)
  | 7 => some (0, 6, 0.984)
  | 8 => some (0, 7, 0.992)
  | 9 => some (0, 8, 0.996)
  | 10 => some (1, 8, 0.978)
  | 11 => some (1, 9, 0.99)
  | 12 => some (2, 9, 0.962)
  | 13 => some (2, 10, 0.978)
  | 14 => some (3, 10, 0.937)
  | 15 => some (2, 12, 0.965)
  | _ => none

/-- `circ_median_ci(median, alpha, ci=ci)` for a given finite median: descriptive.py 1265-1344;
`z` is `norm.ppf(1 - 0.5*(1 - ci))`. The interval is `none` for `n < 3` (`nan` end points). -/
noncomputable def circMedianCi (median : ℝ) (alpha : List ℝ) (ci z : ℝ) :
    Except PyErr (Option (ℝ × ℝ) × ℝ) :=
  let n := alpha.length
  let alpha := sortR alpha
  if 15 < n then
    (medianCiLarge alpha median (1 + ⌊0.5 * sqrt n * z⌋)).map fun p =>
      (some (angmod2pi p.1, angmod2pi p.2), ci)
  else match medianCiTable n with
    | some (i, j, level) =>
      .ok (some (angmod2pi (alpha.getD i 0), angmod2pi (alpha.getD j 0)), level)
    | none => .ok (none, ci)

end Verif
