import Verif.Model.HypMulti
import Verif.Model.Interval
import Mathlib.Analysis.SpecialFunctions.Arsinh
import Verif.Model.HypUnif
import Verif.Model.Median
import Verif.Model.Utils

/-!
# Model of the homogeneity and change-point tests in `pycircstat2/hypothesis.py`, lines 2027-2750

Distribution functions of scipy are parameters. Printing and warnings are not modelled.
-/

namespace Verif

open Real

set_option autoImplicit false

/-- `ConcentrationTestResult`. -/
structure ConcentrationResult where
  fStat : ℝ
  pval : ℝ
  df1 : ℕ
  df2 : ℕ

/-- The part of `concentration_test` after the resultants are known: hypothesis.py 2089-2109; `sf` is
`scipy.stats.f.sf`. -/
noncomputable def concentrationOf (n1 n2 : ℕ) (R1 R2 : ℝ) (sf : ℝ → ℕ → ℕ → ℝ) :
    Except PyErr ConcentrationResult :=
  let df1 := n1 - 1
  let df2 := n2 - 1
  let numerator := (df2 : ℝ) * (n1 - R1)
  let denominator := (df1 : ℝ) * (n2 - R2)
  if denominator ≤ 0 ∨ numerator ≤ 0 then .error .valueError
  else
    let f := numerator / denominator
    let pval := if 1 ≤ f then 2 * sf f df1 df2 else 2 * sf (1 / f) df2 df1
    .ok ⟨f, min pval 1, df1, df2⟩

/-- `concentration_test(alpha1, alpha2)`: hypothesis.py 2027-2124. The resultants are finite: both
samples have at least two observations. -/
noncomputable def concentrationTest (alpha1 alpha2 : List ℝ) (sf : ℝ → ℕ → ℕ → ℝ) :
    Except PyErr ConcentrationResult :=
  if min alpha1.length alpha2.length < 2 then .error .valueError
  else match groupR alpha1, groupR alpha2 with
    | some R1, some R2 => concentrationOf alpha1.length alpha2.length R1 R2 sf
    | _, _ => .error .valueError

/-- `np.cov(x, y, ddof=1)[0, 1]`, and `np.var(x, ddof=1)` for `y = x`: non-finite for fewer than two
values. -/
noncomputable def cov1 (x y : List ℝ) : Option ℝ :=
  (mean x).bind fun mx => (mean y).bind fun my =>
    pydiv (List.zipWith (fun a b => (a - mx) * (b - my)) x y).sum ((x.length : ℝ) - 1)

/-- `cos_means`, `sin_means`, `var_cos`, `var_sin`, `cov_cos_sin` of one sample: hypothesis.py
2166-2177. -/
structure RaoMoments where
  c : ℝ
  s : ℝ
  vc : ℝ
  vs : ℝ
  k : ℝ

/-- Moments of one sample; `none` when it has fewer than two observations. -/
noncomputable def raoMoments (l : List ℝ) : Option RaoMoments :=
  (mean (l.map cos)).bind fun c => (mean (l.map sin)).bind fun s =>
  (cov1 (l.map cos) (l.map cos)).bind fun vc => (cov1 (l.map sin) (l.map sin)).bind fun vs =>
  (cov1 (l.map cos) (l.map sin)).map fun k => ⟨c, s, vc, vs, k⟩

/-- `tan_means` and `s_polar` of one sample: hypothesis.py 2180-2189. -/
noncomputable def raoPolar (l : List ℝ) : Option (ℝ × ℝ) :=
  (raoMoments l).bind fun m =>
  (pydiv m.vs (m.c ^ 2)).bind fun a => (pydiv (m.s ^ 2 * m.vc) (m.c ^ 4)).bind fun b =>
  (pydiv (2 * m.s * m.k) (m.c ^ 3)).bind fun d => (pydiv m.s m.c).map fun t =>
    (t, 1 / (l.length : ℝ) * (a + b - d))

/-- `U` and `s_disp` of one sample: hypothesis.py 2194-2203. -/
noncomputable def raoDisp (l : List ℝ) : Option (ℝ × ℝ) :=
  (raoMoments l).map fun m =>
    (m.c ^ 2 + m.s ^ 2,
      4 / (l.length : ℝ) * (m.c ^ 2 * m.vc + m.s ^ 2 * m.vs + 2 * m.c * m.s * m.k))

/-- `Σ x²/s - (Σ x/s)² / Σ 1/s`: hypothesis.py 2190-2192, 2204. -/
noncomputable def raoH (xs : List (ℝ × ℝ)) : Option ℝ :=
  (xs.mapM fun p => pydiv (p.1 ^ 2) p.2).bind fun a =>
  (xs.mapM fun p => pydiv p.1 p.2).bind fun b =>
  (xs.mapM fun p => pydiv 1 p.2).bind fun c =>
  (pydiv (b.sum ^ 2) c.sum).map fun d => a.sum - d

/-- `RaoHomogeneityTestResult`; non-finite statistics are `none`. -/
structure RaoHomogeneityResult where
  hPolar : Option ℝ
  pvalPolar : Option ℝ
  rejectPolar : Bool
  hDisp : Option ℝ
  pvalDisp : Option ℝ
  rejectDisp : Bool

/-- `H > crit` (false when `H` is `nan`). -/
noncomputable def exceeds (H : Option ℝ) (crit : ℝ) : Bool :=
  match H with
  | none => false
  | some h => decide (crit < h)

/-- `rao_homogeneity_test(samples, alpha)`: hypothesis.py 2127-2245, `samples` a list of arrays; `cdf`
and `ppf` are those of `chi2`. -/
noncomputable def raoHomogeneity (samples : List (List ℝ)) (alpha : ℝ) (cdf : ℝ → ℕ → ℝ)
    (ppf : ℝ → ℕ → ℝ) : RaoHomogeneityResult :=
  let df := samples.length - 1
  let hp := (samples.mapM raoPolar).bind raoH
  let hd := (samples.mapM raoDisp).bind raoH
  let crit := ppf (1 - alpha) df
  ⟨hp, hp.map fun h => 1 - cdf h df, exceeds hp crit, hd, hd.map fun h => 1 - cdf h df, exceeds hd crit⟩

/-- `np.argmax`: the first position of the largest value. -/
noncomputable def argmaxL (l : List ℝ) : ℕ :=
  match maxL l with
  | none => 0
  | some m => l.idxOf m

/-- `phi(x)`: hypothesis.py 2273-2288; `logI0` is the logarithm of the Bessel function (with the
expansion used when it overflows). `A1inv(1)` is infinite, which makes `phi(1)` a `nan`. -/
noncomputable def cpPhi (logI0 : ℝ → ℝ) (x : ℝ) : Option ℝ := (a1inv x).map fun inv => x * inv - logI0 inv

/-- `est_rho(alpha)`: hypothesis.py 2290-2292 (for a non-empty array). -/
noncomputable def estRho (alpha : List ℝ) : ℝ :=
  ‖(alpha.map fun a : ℝ => Complex.exp (Complex.I * a)).sum‖ / alpha.length

/-- `R_diff`: hypothesis.py 2298-2314. Entry `k - 1` for `k = 1, …, n - 1`, then the last entry. -/
noncomputable def cpRdiff (alpha : List ℝ) : List ℝ :=
  let n := alpha.length
  let rho := estRho alpha
  ((List.range (n - 1)).map fun i : ℕ =>
    estRho (alpha.take (i + 1)) * ((i + 1 : ℕ) : ℝ) + estRho (alpha.drop (i + 1)) * ((n - (i + 1) : ℕ) : ℝ)
      - rho * n) ++ [rho * n + 0 - rho * n]

/-- `V[1 : n - 2]`: hypothesis.py 2306-2309, 2320: the entries for `k = 2, …, n - 2`. -/
noncomputable def cpV (logI0 : ℝ → ℝ) (alpha : List ℝ) : List (Option ℝ) :=
  let n := alpha.length
  (List.range (n - 3)).map fun i : ℕ =>
    let k := i + 2
    let R1 := estRho (alpha.take k) * (k : ℝ)
    let R2 := estRho (alpha.drop k) * ((n - k : ℕ) : ℝ)
    (cpPhi logI0 (R1 / k)).bind fun a => (cpPhi logI0 (R2 / ((n - k : ℕ) : ℝ))).map fun b =>
      (k : ℝ) / n * a + ((n - k : ℕ) : ℝ) / n * b

/-- `ChangePointTestResult`. -/
structure ChangePointResult where
  n : ℕ
  rho : ℝ
  rmax : ℝ
  kR : ℕ
  rave : ℝ
  tmax : Option ℝ
  kT : ℕ
  tave : Option ℝ

/-- `np.max`, `np.argmax + 1` and `np.mean` of an array that may contain `nan`: hypothesis.py
2321-2323. `np.argmax` returns the position of the first `nan`, if there is one. -/
noncomputable def cpT (V : List (Option ℝ)) : Option ℝ × ℕ × Option ℝ :=
  match (V.mapM id : Option (List ℝ)) with
  | some v => (maxL v, argmaxL v + 1, mean v)
  | none => (none, V.findIdx (fun x => x.isNone) + 1, none)

/-- `change_point_test(alpha)`: hypothesis.py 2248-2351. -/
noncomputable def changePoint (alpha : List ℝ) (logI0 : ℝ → ℝ) : Except PyErr ChangePointResult :=
  let n := alpha.length
  if n < 4 then .error .valueError
  else
    let d := cpRdiff alpha
    match maxL d, mean d with
    | some rmax, some rave =>
      let t := cpT (cpV logI0 alpha)
      .ok ⟨n, estRho alpha, rmax, argmaxL d, rave, t.1, t.2.1, t.2.2⟩
    | _, _ => .error .valueError

/-- A two-way layout: angle, level of factor A, level of factor B. -/
abbrev Layout := List (ℝ × ℤ × ℤ)

/-- The observations of a layout that satisfy a condition, `groupby`. -/
def cellOf (data : Layout) (p : ℤ × ℤ → Bool) : List ℝ := (data.filter fun d => p d.2).map Prod.fst

/-- Distinct levels of a factor. -/
def levels (l : List ℤ) : List ℤ := l.dedup

/-- `Σ_g R_g² / n_g` over groups; `none` (nan) when a group is empty or not finite: hypothesis.py 2419,
2423, 2434, 2439-2441. -/
noncomputable def sumRsq (groups : List (List ℝ)) : Option ℝ :=
  (groups.mapM fun g => (groupR g).bind fun R => pydiv (R ^ 2) g.length).map List.sum

/-- `Σ pr²/pn` over the levels of A. -/
noncomputable def hkA (data : Layout) : Option ℝ :=
  sumRsq ((levels (data.map fun d => d.2.1)).map fun p => cellOf data fun k => k.1 == p)

/-- `Σ qr²/qn` over the levels of B. -/
noncomputable def hkB (data : Layout) : Option ℝ :=
  sumRsq ((levels (data.map fun d => d.2.2)).map fun q => cellOf data fun k => k.2 == q)

/-- `Σ cr²/cn` over all combinations of levels. A combination without observations is `nan` after
`unstack`, and so is the sum. -/
noncomputable def hkC (data : Layout) : Option ℝ :=
  sumRsq (((levels (data.map fun d => d.2.1)).flatMap fun p =>
    (levels (data.map fun d => d.2.2)).map fun q => (p, q)).map fun c => cellOf data fun k => k == c)

/-- Table of the large-kappa branch, hypothesis.py 2418-2461, 2488-2497: A, B, interaction (`nan` with
`inter=False`), residual, total; the F statistics and p values of the first three. -/
structure HKTable where
  ss : List (Option ℝ)
  df : List (Option ℝ)
  F : List (Option ℝ)
  p : List (Option ℝ)

/-- Quotient of two possibly non-finite numbers. -/
noncomputable def odiv (a b : Option ℝ) : Option ℝ := a.bind fun x => b.bind fun y => pydiv x y

/-- Large-kappa branch: hypothesis.py 2418-2461; `m`, the mean cell count, is `n / (p q)` when no cell
is empty and `nan` otherwise; `fcdf` is `f.cdf`. -/
noncomputable def hkLarge (data : Layout) (inter : Bool) (kk : ℝ) (fcdf : ℝ → ℝ → ℝ → ℝ) : HKTable :=
  let n : ℝ := data.length
  let p : ℝ := (levels (data.map fun d => d.2.1)).length
  let q : ℝ := (levels (data.map fun d => d.2.2)).length
  let t := (groupR (data.map Prod.fst)).bind fun tr => pydiv (tr ^ 2) n
  let sub := fun a b : Option ℝ => a.bind fun x => b.map fun y => x - y
  let add := fun a b : Option ℝ => a.bind fun x => b.map fun y => x + y
  let eff1 := sub (hkA data) t
  let eff2 := sub (hkB data) t
  let effT := sub (some n) t
  let m := (hkC data).bind fun _ => pydiv n (p * q)
  let effR := if inter then sub (some n) (hkC data)
    else add (sub (sub (some n) (hkB data)) (hkA data)) t
  let effI := if inter then add (sub (sub (hkC data) (hkB data)) (hkA data)) t else none
  let dfR := if inter then m.map fun m => p * q * (m - 1) else some ((p - 1) * (q - 1))
  let dfI := if inter then some ((p - 1) * (q - 1)) else none
  let beta := if inter then pydiv 1 (1 - 1 / (5 * kk) - 1 / (10 * kk ^ 2)) else some 1
  let msR := odiv effR dfR
  let F1 := beta.bind fun b => odiv ((odiv eff1 (some (p - 1))).map fun x => b * x) msR
  let F2 := beta.bind fun b => odiv ((odiv eff2 (some (q - 1))).map fun x => b * x) msR
  let FI := odiv (odiv effI dfI) msR
  let pv := fun (F df : Option ℝ) => F.bind fun x => df.bind fun d => dfR.map fun r => 1 - fcdf x d r
  ⟨[eff1, eff2, effI, effR, effT], [some (p - 1), some (q - 1), dfI, dfR, some (n - 1)],
    [F1, F2, FI], [pv F1 (some (p - 1)), pv F2 (some (q - 1)), pv FI dfI]⟩

/-- Small-kappa branch: hypothesis.py 2463-2482, 2499-2506: the chi-square statistics of A, B and the
interaction, their degrees of freedom and p values; `rr` is `iv(1, kk) / iv(0, kk)`; `inter` plays no
role. `chi2` gives `chi2.cdf`. -/
noncomputable def hkSmall (data : Layout) (rr : ℝ) (chi2 : ℝ → ℝ → ℝ) :
    List (Option ℝ × ℝ × Option ℝ) :=
  let n : ℝ := data.length
  let p : ℝ := (levels (data.map fun d => d.2.1)).length
  let q : ℝ := (levels (data.map fun d => d.2.2)).length
  let t := (groupR (data.map Prod.fst)).bind fun tr => pydiv (tr ^ 2) n
  let k := pydiv 2 (1 - rr ^ 2)
  let chiOf := fun (x : Option ℝ) (df : ℝ) => (x, df, x.map fun v => 1 - chi2 v df)
  let scale := fun x : Option ℝ => k.bind fun k => x.map fun v => k * v
  [chiOf (scale ((hkA data).bind fun a => t.map fun t => a - t)) (2 * (p - 1)),
   chiOf (scale ((hkB data).bind fun b => t.map fun t => b - t)) (2 * (q - 1)),
   chiOf (scale ((hkC data).bind fun c => (hkA data).bind fun a => (hkB data).bind fun b =>
      t.map fun t => c - a - b + t)) ((p - 1) * (q - 1))]

/-- `kk = circ_kappa(tr / n)` and the choice of branch: hypothesis.py 2398-2399, 2418. -/
noncomputable def hkKappa (data : Layout) : Option ℝ :=
  (groupR (data.map Prod.fst)).map fun tr => circKappa (tr / data.length) none

/-- `harrison_kanji_test(alpha, idp, idq, inter)`: hypothesis.py 2354-2533: the large-kappa table or
the rows of the small-kappa one; `ratio kk` is `iv(1, kk) / iv(0, kk)`. An empty data set is not
modelled (`none`). -/
noncomputable def harrisonKanji (data : Layout) (inter : Bool) (fcdf : ℝ → ℝ → ℝ → ℝ)
    (chi2 : ℝ → ℝ → ℝ) (ratio : ℝ → ℝ) : Option (HKTable ⊕ List (Option ℝ × ℝ × Option ℝ)) :=
  (hkKappa data).map fun kk =>
    if 2 < kk then .inl (hkLarge data inter kk fcdf) else .inr (hkSmall data (ratio kk) chi2)

/-- `EqualKappaTestResult`. -/
structure EqualKappaResult where
  kappa : List ℝ
  kappaAll : ℝ
  rho : List ℝ
  rhoAll : ℝ
  df : ℕ
  statistic : Option ℝ
  pval : Option ℝ
  regime : String

/-- `Σ w g² - (Σ w g)² / Σ w`: hypothesis.py 2601, 2608. -/
noncomputable def weightedDev (ws gs : List ℝ) : Option ℝ :=
  (pydiv ((List.zipWith (fun w g => w * g) ws gs).sum ^ 2) ws.sum).map fun d =>
    (List.zipWith (fun w g => w * g ^ 2) ws gs).sum - d

/-- Small regime: hypothesis.py 2599-2602. -/
noncomputable def ekSmall (ns : List ℕ) (rs : List ℝ) : Option ℝ :=
  (rs.mapM fun r => pyarcsin (sqrt (3 / 8) * 2 * r)).bind fun gs =>
    weightedDev (ns.map fun n : ℕ => 4 * ((n : ℝ) - 4) / 3) gs

/-- Moderate regime: hypothesis.py 2606-2609. -/
noncomputable def ekModerate (ns : List ℕ) (rs : List ℝ) : Option ℝ :=
  weightedDev (ns.map fun n : ℕ => ((n : ℝ) - 3) / 0.798) (rs.map fun r => arsinh ((r - 1.089) / 0.258))

/-- Large regime: hypothesis.py 2613-2625. -/
noncomputable def ekLarge (ns : List ℕ) (rs : List ℝ) : Except PyErr ℝ :=
  let k : ℝ := ns.length
  let N : ℝ := (ns.map fun n : ℕ => (n : ℝ)).sum
  let vs := ns.map fun n : ℕ => (n : ℝ) - 1
  let v := N - k
  let d := 1 / (3 * (k - 1)) * ((vs.map fun x => 1 / x).sum - 1 / v)
  let Rs := List.zipWith (fun (r : ℝ) (n : ℕ) => r * (n : ℝ)) rs ns
  let totalResidual := N - Rs.sum
  let residuals := List.zipWith (fun (n : ℕ) R => (n : ℝ) - R) ns Rs
  if ∃ x ∈ residuals, x ≤ 0 then .error .valueError
  else if totalResidual ≤ 0 then .error .valueError
  else .ok (1 / (1 + d) * (v * log (totalResidual / v)
    - (List.zipWith (fun v x => v * log (x / v)) vs residuals).sum))

/-- The statistic and the regime: hypothesis.py 2596-2625. -/
noncomputable def ekStat (ns : List ℕ) (rs : List ℝ) (rAll : ℝ) : Except PyErr (Option ℝ × String) :=
  if rAll < 0.45 then .ok (ekSmall ns rs, "small")
  else if 0.45 ≤ rAll ∧ rAll ≤ 0.7 then .ok (ekModerate ns rs, "moderate")
  else (ekLarge ns rs).map fun x => (some x, "large")

/-- `equal_kappa_test(samples)`: hypothesis.py 2536-2656; `cdf` is `chi2.cdf`. The mean resultant
lengths are finite because no group is empty. -/
noncomputable def equalKappa (samples : List (List ℝ)) (cdf : ℝ → ℕ → ℝ) : Except PyErr EqualKappaResult :=
  if samples.length < 2 then .error .valueError
  else if ∃ g ∈ samples, g.length = 0 then .error .valueError
  else if ∃ g ∈ samples, g.length < 2 then .error .valueError
  else
    match (samples.mapM fun g => circR g (ones g)), circR samples.flatten (ones samples.flatten) with
    | some rs, some rAll =>
      (ekStat (samples.map List.length) rs rAll).map fun s =>
        ⟨rs.map fun r => circKappa r none, circKappa rAll none, rs, rAll, samples.length - 1, s.1,
          s.1.map fun x => 1 - cdf x (samples.length - 1), s.2⟩
    | _, _ => .error .valueError

/-- `CommonMedianTestResult`. -/
structure CommonMedianResult where
  commonMedian : Option ℝ
  statistic : ℝ
  pval : ℝ
  reject : Bool

/-- Statistic: hypothesis.py 2715-2720; `m` are the counts below the median. -/
noncomputable def commonMedianStat (ns m : List ℕ) : Except PyErr ℝ :=
  let N : ℝ := (ns.map fun n : ℕ => (n : ℝ)).sum
  let M : ℝ := (m.map fun n : ℕ => (n : ℝ)).sum
  if M = 0 ∨ M = N then .error .valueError
  else .ok (N ^ 2 / (M * (N - M)) * (List.zipWith (fun (a n : ℕ) => (a : ℝ) ^ 2 / n) m ns).sum
    - N * M / (N - M))

/-- `common_median_test(samples, alpha)`: hypothesis.py 2659-2750; `init` is the uninitialised buffer
inside `circ_median`, `cdf` is `chi2.cdf`. A `nan` median makes every comparison false. -/
noncomputable def commonMedianTest (samples : List (List ℝ)) (alpha : ℝ) (cdf : ℝ → ℕ → ℝ)
    (init : List (Option ℝ)) : Except PyErr CommonMedianResult :=
  if ¬ (0 < alpha ∧ alpha < 1) then .error .valueError
  else if samples.length < 2 then .error .valueError
  else if ∃ g ∈ samples, g.length = 0 then .error .valueError
  else
    (circMedian samples.flatten (ones samples.flatten) "deviation" true "all" init).bind fun med =>
      let median : Option ℝ := med.bind List.head?
      let m := samples.map fun g => match median with
        | none => 0
        | some c => g.countP fun a => decide (centerDist a c < 0)
      (commonMedianStat (samples.map List.length) m).map fun P =>
        let p := 1 - cdf P (samples.length - 1)
        ⟨if p < alpha then none else median, P, p, decide (p < alpha)⟩

end Verif
