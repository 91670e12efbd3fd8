import Verif.Model.HypHomog

/-!
# Model of `pycircstat2/correlation.py`

Angles given as a `Circular` object carry the p value of their mean (`mean_pval`); plain arrays carry
none: this is the parameter `pa : Option ℝ`. Only one-dimensional inputs are modelled. The normal and
chi-square distribution functions are parameters.
-/

namespace Verif

open Real

set_option autoImplicit false

/-- `CorrelationResult`: correlation.py 11-16; `none` in `r`, `pval`, `stat` is `nan` (for `pval`,
`stat`, `reject` also the default `None`). -/
structure CorrelationResult where
  r : Option ℝ
  pval : Option ℝ := none
  reject : Option Bool := none
  stat : Option ℝ := none

/-- `np.subtract.outer(a, a)[np.triu_indices(len(a), k=1)]`: differences of all pairs, the earlier
minus the later. -/
def pairDiffs : List ℝ → List ℝ
  | [] => []
  | x :: l => l.map (fun y => x - y) ++ pairDiffs l

/-- The inner function `_corr` of `_circ_corrcc_fl`: correlation.py 144-151. -/
noncomputable def flCorr (a b : List ℝ) : Except PyErr ℝ :=
  let da := (pairDiffs a).map sin
  let db := (pairDiffs b).map sin
  let num := (List.zipWith (fun x y => x * y) da db).sum
  let den := sqrt ((da.map fun x => x ^ 2).sum * (db.map fun x => x ^ 2).sum)
  if isclose den 0 rtolDefault atolDefault then .error .valueError else .ok (num / den)

/-- The jackknife decision of `_circ_corrcc_fl`: correlation.py 155-170; `z` is `norm.ppf(0.975)`. For
fewer than two leave-one-out coefficients the variance is not finite (this does not happen, see
`flTest`). -/
noncomputable def flReject (n : ℕ) (r : ℝ) (raas : List ℝ) (z : ℝ) : Bool :=
  match mean raas, cov1 raas raas with
  | some m, some s2 =>
    let lb := n * r - (n - 1) * m - z * sqrt (s2 / n)
    let ub := n * r - (n - 1) * m + z * sqrt (s2 / n)
    !(decide (lb ≤ 0) && decide (0 ≤ ub))
  | _, _ => true

/-- `_circ_corrcc_fl`: correlation.py 110-172. -/
noncomputable def corrFl (a b : List ℝ) (test : Bool) (z : ℝ) : Except PyErr CorrelationResult :=
  if a.length ≠ b.length then .error .valueError
  else if a.length < 2 then .error .valueError
  else (flCorr a b).bind fun r =>
    if test then
      ((List.range a.length).mapM fun i => flCorr (a.eraseIdx i) (b.eraseIdx i)).map fun raas =>
        { r := some r, reject := some (flReject a.length r raas z) }
    else .ok { r := some r }

/-- `_circ_corrcc_js` once the two means are known: correlation.py 220-242; `cdf` is `norm.cdf`. -/
noncomputable def jsOf (a b : List ℝ) (ma mb : ℝ) (test : Bool) (cdf : ℝ → ℝ) :
    Except PyErr CorrelationResult :=
  let sa := a.map fun x => sin (x - ma)
  let sb := b.map fun x => sin (x - mb)
  let num := (List.zipWith (fun x y => x * y) sa sb).sum
  let den := sqrt ((sa.map fun x => x ^ 2).sum * (sb.map fun x => x ^ 2).sum)
  if isclose den 0 rtolDefault atolDefault then .error .valueError
  else
    let r := num / den
    if test then
      let l20 : ℝ := (sa.map fun x => x ^ 2).sum / a.length
      let l02 : ℝ := (sb.map fun x => x ^ 2).sum / b.length
      let l22 : ℝ := (List.zipWith (fun x y => x ^ 2 * y ^ 2) sa sb).sum / a.length
      if isclose l22 0 rtolDefault atolDefault then .error .valueError
      else
        let stat := sqrt (a.length : ℝ) * sqrt (l20 * l02 / l22) * r
        .ok { r := some r, pval := some (2 * (1 - cdf |stat|)), stat := some stat }
    else .ok { r := some r }

/-- `strict and pval is not None and pval >= 0.05`: correlation.py 212, 214. -/
noncomputable def looksUniform (strict : Bool) (p : Option ℝ) : Bool :=
  match p with
  | none => false
  | some p => strict && decide (0.05 ≤ p)

/-- `_circ_corrcc_js`: correlation.py 175-242. An undefined mean makes every comparison false and the
results `nan`. -/
noncomputable def corrJs (a b : List ℝ) (pa pb : Option ℝ) (test strict : Bool) (cdf : ℝ → ℝ) :
    Except PyErr CorrelationResult :=
  if a.length ≠ b.length then .error .valueError
  else if a.length < 2 then .error .valueError
  else if looksUniform strict pa then .error .valueError
  else if looksUniform strict pb then .error .valueError
  else match circMean a (ones a), circMean b (ones b) with
    | some ma, some mb => jsOf a b ma mb test cdf
    | _, _ => .ok { r := none }

/-- `_circ_corrcc_np`: correlation.py 245-277. -/
noncomputable def corrNp (a b : List ℝ) : Except PyErr CorrelationResult :=
  if a.length ≠ b.length then .error .valueError
  else if a.length < 3 then .error .valueError
  else
    let n : ℝ := a.length
    let C := 2 * π / n
    let d := List.zipWith (fun x y => C * (x - y)) (rankAvg a) (rankAvg b)
    let s := List.zipWith (fun x y => C * (x + y)) (rankAvg a) (rankAvg b)
    let r1 := ((d.map cos).sum ^ 2 + (d.map sin).sum ^ 2) / n ^ 2
    let r2 := ((s.map cos).sum ^ 2 + (s.map sin).sum ^ 2) / n ^ 2
    let r := r1 - r2
    .ok { r := some r, reject := some (decide ((n - 1) * r > 2.99 + 2.16 / n)) }

/-- `circ_corrcc(a, b, method, test, strict)`: correlation.py 19-89; `lower` is the method name in
lower case. The result is the whole record; with `test=False` the code returns its field `r` only. -/
noncomputable def circCorrcc (a b : List ℝ) (pa pb : Option ℝ) (lower : String) (test strict : Bool)
    (z : ℝ) (cdf : ℝ → ℝ) : Except PyErr CorrelationResult :=
  if lower = "fl" then corrFl a b test z
  else if lower = "js" then corrJs a b pa pb test strict cdf
  else if lower = "nonparametric" then corrNp a b
  else .error .valueError

/-- `np.corrcoef(x, y)[0, 1]`: covariance over the product of the standard deviations, `nan` when one
of them is zero (the clipping to `[-1, 1]` does nothing over ℝ). -/
noncomputable def corrcoef (x y : List ℝ) : Option ℝ :=
  (cov1 x y).bind fun cxy => (cov1 x x).bind fun cxx => (cov1 y y).bind fun cyy =>
    pydiv cxy (sqrt cxx * sqrt cyy)

/-- `circ_corrcl` once the three coefficients are known: correlation.py 331-339; `cdf` is the
chi-square distribution function with two degrees of freedom. A coefficient that is `nan` makes the
comparison false and the result `nan` (`max(nan, 0.0)` is `nan`). -/
noncomputable def corrclOf (n : ℕ) (rxc rxs rcs : Option ℝ) (cdf : ℝ → ℝ) : Except PyErr CorrelationResult :=
  match rcs with
  | none => .ok { r := none }
  | some cs =>
    let den := 1 - cs ^ 2
    if isclose den 0 rtolDefault atolDefault then .error .valueError
    else match rxc, rxs with
      | some xc, some xs =>
        let num := xc ^ 2 + xs ^ 2 - 2 * xc * xs * cs
        let r := sqrt (max (num / den) 0)
        .ok { r := some r, pval := some (1 - cdf (n * r ^ 2)) }
      | _, _ => .ok { r := none }

/-- `circ_corrcl(a, x)`: correlation.py 280-339. -/
noncomputable def corrcl (a x : List ℝ) (cdf : ℝ → ℝ) : Except PyErr CorrelationResult :=
  if a.length ≠ x.length then .error .valueError
  else if a.length < 3 then .error .valueError
  else
    corrclOf a.length (corrcoef (a.map cos) x) (corrcoef x (a.map sin))
      (corrcoef (a.map sin) (a.map cos)) cdf

end Verif
