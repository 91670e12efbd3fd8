import Verif.Model.Median
import Verif.Model.HypMulti

/-!
# Model of the symmetry test and of the chi-square test for grouped data
-/

set_option autoImplicit false

namespace Verif

open Real

/-- The sum of the ranks `scipy.stats.wilcoxon` gives to the entries of `d` that satisfy `p`: zeros are
dropped (`zero_method="wilcox"`), the rest are ranked by absolute value with average ranks. -/
noncomputable def signedRankSum (p : ℝ → Bool) (d : List ℝ) : ℝ :=
  let nz := d.filter fun x => decide (x ≠ 0)
  ((nz.zip (rankAvg (nz.map fun x => |x|))).map fun z => if p z.1 then z.2 else 0).sum

/-- `scipy.stats.wilcoxon(d, alternative="two-sided")`: the statistic is the smaller of the two rank
sums. The p-value is computed by scipy from the number of zeros, the ranks and the two rank sums; that
computation is the parameter `pv` (`none` is `nan`). -/
noncomputable def wilcoxon (d : List ℝ) (pv : ℕ → Multiset ℝ → ℝ → ℝ → Option ℝ) :
    Option ℝ × Option ℝ :=
  let nz := d.filter fun x => decide (x ≠ 0)
  let rPlus := signedRankSum (fun x => decide (0 < x)) d
  let rMinus := signedRankSum (fun x => decide (x < 0)) d
  (some (min rPlus rMinus),
    pv (d.length - nz.length) (Multiset.ofList (rankAvg (nz.map fun x => |x|))) rPlus rMinus)

/-- `symmetry_test` once the median is known: hypothesis.py 950-954. A `nan` median makes every
deviation `nan`, and `wilcoxon` propagates it. -/
noncomputable def symmetryAt (alpha : List ℝ) (median : Option ℝ)
    (pv : ℕ → Multiset ℝ → ℝ → ℝ → Option ℝ) : Option ℝ × Option ℝ :=
  match median with
  | none => (none, none)
  | some m => wilcoxon (alpha.map fun a => angmodB (-π) π (a - m)) pv

/-- `symmetry_test(alpha, median)`: hypothesis.py 910-966; returns `(statistic, pval)`. `init` is the
uninitialised buffer of `circ_median`. -/
noncomputable def symmetryTest (alpha : List ℝ) (median : Option ℝ)
    (pv : ℕ → Multiset ℝ → ℝ → ℝ → Option ℝ) (init : List (Option ℝ)) :
    Except PyErr (Option ℝ × Option ℝ) :=
  if alpha = [] then .error .valueError
  else match median with
    | some m => .ok (symmetryAt alpha (some m) pv)
    | none =>
      (circMedian alpha (ones alpha) "deviation" true "all" init).bind fun med =>
        match med with
        | none => .ok (symmetryAt alpha none pv)
        | some [m] => .ok (symmetryAt alpha (some m) pv)
        | some _ => .error .typeError

/-- `scipy.stats.chisquare(f)` with the default expected frequencies (the mean of `f`): statistic and
p-value; `none` is `nan` (all expected frequencies zero). `sf x df` is the survival function of the
chi-square distribution. -/
noncomputable def chisquare (f : List ℝ) (sf : ℝ → ℕ → ℝ) : Option ℝ × Option ℝ :=
  let e := f.sum / f.length
  if e = 0 then (none, none)
  else
    let stat := (f.map fun x => (x - e) ^ 2 / e).sum
    (some stat, some (sf stat (f.length - 1)))

/-- `chisquare_test(w)`: hypothesis.py 516-571, for one-dimensional `w`; returns `(chi2, pval)`. -/
noncomputable def chisquareTest (w : List ℝ) (sf : ℝ → ℕ → ℝ) :
    Except PyErr (Option ℝ × Option ℝ) :=
  if w = [] then .error .valueError
  else if w.any fun x => decide (x < 0) then .error .valueError
  else .ok (chisquare w sf)

end Verif
