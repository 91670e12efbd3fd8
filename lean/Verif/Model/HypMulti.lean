import Verif.Model.HypOne
import Verif.Model.Range
import Verif.Model.Dist

/-!
# Model of the two- and multi-sample tests in `pycircstat2/hypothesis.py`, lines 315-371, 970-1564

Distribution functions of scipy and random permutations are parameters.
-/

namespace Verif

open Real

set_option autoImplicit false

/-- `_CircularSample` (hypothesis.py 298-312). -/
structure CSample where
  alpha : List ℝ
  w : List ℕ
  n : ℕ
  r : ℝ

/-- Field `R` of `_CircularSample`: hypothesis.py 367. -/
noncomputable def CSample.R (s : CSample) : ℝ := s.n * s.r

/-- `_CircularSample.expand`: hypothesis.py 308-312. -/
def CSample.expand (s : CSample) : List ℝ :=
  (List.zipWith (fun x k => List.replicate k x) s.alpha s.w).flatten

/-- One step of `_coerce_circular_samples`: hypothesis.py 328-369, for a sample given as angles and
weights (a plain array of angles has weights `ones alpha`; all numbers are finite). -/
noncomputable def coerceSample (alpha w : List ℝ) : Except PyErr CSample :=
  if alpha.length = 0 then .error .valueError
  else if w.length ≠ alpha.length then .error .valueError
  else if ∃ x ∈ w, x < 0 then .error .valueError
  else
    let rounded : List ℕ := w.map fun x => (roundEven x).toNat
    if ∃ x ∈ w, ¬ isclose x (roundEven x) rtolDefault atolDefault then .error .valueError
    else
      let n := rounded.sum
      if n = 0 then .error .valueError
      else match circR alpha (rounded.map fun k : ℕ => (k : ℝ)) with
        | none => .error .valueError
        | some r => .ok ⟨alpha, rounded, n, r⟩

/-- `_coerce_circular_samples(samples)`: hypothesis.py 315-371. -/
noncomputable def coerceSamples (samples : List (List ℝ × List ℝ)) : Except PyErr (List CSample) :=
  if samples.length = 0 then .error .valueError
  else samples.mapM fun s => coerceSample s.1 s.2

/-- `WatsonWilliamsTestResult`; `F` and `pval` are `none` when the division by `N - ΣR = 0` makes them
non-finite. -/
structure WWResult where
  F : Option ℝ
  pval : Option ℝ
  dfBetween : ℕ
  dfWithin : ℕ
  k : ℕ
  N : ℕ

/-- The factor `K`: hypothesis.py 1009-1023 (`circ_kappa` is finite in the model). -/
noncomputable def wwFactor (rw : ℝ) : ℝ :=
  let kappa := circKappa rw none
  if kappa ≤ 0 then 1 else 1 + 3 / (8 * kappa)

/-- `watson_williams_test` for coerced samples: hypothesis.py 998-1060; `sf` is `f.sf`. -/
noncomputable def wwOf (ss : List CSample) (sf : ℝ → ℕ → ℕ → ℝ) : Except PyErr WWResult :=
  if ss.length < 2 then .error .valueError
  else
    let k := ss.length
    let N := (ss.map CSample.n).sum
    if N ≤ k then .error .valueError
    else
      let sumR := (ss.map CSample.R).sum
      let K := wwFactor (sumR / N)
      let allAlpha := (ss.map CSample.alpha).flatten
      let allW := (ss.map CSample.w).flatten.map fun k : ℕ => (k : ℝ)
      let F := (circR allAlpha allW).bind fun r =>
        let R := N * r
        (pydiv (K * ((N : ℝ) - k) * (sumR - R)) (N - sumR)).map fun x => x / ((k : ℝ) - 1)
      .ok ⟨F, F.map fun x => sf x (k - 1) (N - k), k - 1, N - k, k, N⟩

/-- `watson_williams_test(samples)`: hypothesis.py 970-1060. -/
noncomputable def watsonWilliams (samples : List (List ℝ × List ℝ)) (sf : ℝ → ℕ → ℕ → ℝ) :
    Except PyErr WWResult :=
  (coerceSamples samples).bind fun ss => wwOf ss sf

/-- Sorted distinct values, `np.unique`. -/
noncomputable def uniqueR (l : List ℝ) : List ℝ := (sortR l).dedup

/-- `np.repeat(freq, tiles)`: a negative count or different lengths raise `ValueError`. -/
def npRepeat (xs : List ℝ) (tiles : List ℤ) : Except PyErr (List ℝ) :=
  if xs.length ≠ tiles.length then .error .valueError
  else if ∃ t ∈ tiles, t < 0 then .error .valueError
  else .ok (List.zipWith (fun x (k : ℤ) => List.replicate k.toNat x) xs tiles).flatten

/-- The positions found by `np.where(np.isclose(alpha_unique, val, atol=atol))[0]`. -/
noncomputable def closePositions (u : List ℝ) (val atol : ℝ) : List ℕ :=
  (List.range u.length).filter fun i => decide (isclose (u.getD i 0) val rtolDefault atol)

/-- `np.diff` of integers. -/
def diffZ (l : List ℤ) : List ℤ := List.zipWith (fun a b => b - a) l l.tail

/-- `scipy.stats.rankdata(x, method="max")`. -/
noncomputable def rankMax (l : List ℝ) : List ℝ :=
  l.map fun x => ((l.countP fun y => decide (y ≤ x) : ℕ) : ℝ)

/-- The inner function `cumfreq` of `watson_u2_test`: hypothesis.py 1106-1119; `x` is the expanded
sample, not empty. -/
noncomputable def cumfreq (u x : List ℝ) : Except PyErr (List ℝ) :=
  let idx : List ℤ := (x.map fun v => closePositions u v (1 / 10 ^ 10)).flatten.map fun i : ℕ => (i : ℤ)
  let idx := 0 :: (idx ++ [(u.length : ℤ)])
  let freq : List ℝ := 0 :: (rankMax x).map fun c : ℝ => c / (x.length : ℝ)
  npRepeat freq (diffZ idx)

/-- `watson_u2_test` for two expanded samples: hypothesis.py 1121-1145; returns `(U2, pval)`. The two
cumulated frequencies have the length of `u` whenever they are defined. -/
noncomputable def watsonU2Of (x y : List ℝ) : Except PyErr (ℝ × ℝ) :=
  let u := uniqueR (x ++ y)
  let t : List ℝ := u.map fun v => ((x ++ y).count v : ℝ)
  (cumfreq u x).bind fun f1 => (cumfreq u y).map fun f2 =>
    let d := List.zipWith (fun a b => b - a) f1 f2
    let N : ℝ := x.length + y.length
    let U2 := x.length * y.length / N ^ 2 *
      ((List.zipWith (fun t d => t * d ^ 2) t d).sum
        - (List.zipWith (fun t d => t * d) t d).sum ^ 2 / N)
    (U2, 2 * exp (-19.74 * U2))

/-- `watson_u2_test(samples)`: hypothesis.py 1063-1145 (the sample sizes `n` are the lengths of the
expanded samples). -/
noncomputable def watsonU2 (samples : List (List ℝ × List ℝ)) : Except PyErr (ℝ × ℝ) :=
  (coerceSamples samples).bind fun ss =>
    match ss with
    | [s1, s2] => watsonU2Of s1.expand s2.expand
    | _ => .error .valueError

/-- `get_circrank` of `wheeler_watson_test`: hypothesis.py 1185-1190. `np.squeeze` of position lists
of different lengths is a `ValueError`; when every value has exactly one position it is the list of
positions (the model refuses the remaining case, several positions for every value). -/
noncomputable def circRank (u x : List ℝ) (N : ℕ) : Except PyErr (List ℝ) :=
  x.mapM fun v => match closePositions u v atolDefault with
    | [i] => .ok (2 * π / N * ((i : ℝ) + 1))
    | _ => .error .valueError

/-- `C² + S²` of a list of angles: hypothesis.py 1201-1203, 1208-1210. -/
noncomputable def rankSq (ranks : List ℝ) : ℝ := (ranks.map cos).sum ^ 2 + (ranks.map sin).sum ^ 2

/-- `wheeler_watson_test` for coerced samples: hypothesis.py 1192-1227; returns `(W, pval, df)`. `sf`
is `chi2.sf`. -/
noncomputable def wheelerOf (ss : List CSample) (sf : ℝ → ℕ → ℝ) : Except PyErr (ℝ × ℝ × ℕ) :=
  let N := (ss.map CSample.n).sum
  let u := uniqueR (ss.map CSample.expand).flatten
  (ss.mapM fun s => circRank u s.expand N).bind fun ranks =>
    let df := 2 * (ranks.length - 1)
    match ranks, ss with
    | [r1, _], [s1, s2] =>
      let W := 2 * ((N : ℝ) - 1) * rankSq r1 / (s1.n * s2.n)
      .ok (W, sf W df, df)
    | _, _ =>
      if 3 ≤ ranks.length then
        let W := (List.zipWith (fun r (s : CSample) => rankSq r / s.n) ranks ss).sum * 2
        .ok (W, sf W df, df)
      else .error .valueError

/-- `wheeler_watson_test(samples)`: hypothesis.py 1148-1227. -/
noncomputable def wheelerWatson (samples : List (List ℝ × List ℝ)) (sf : ℝ → ℕ → ℝ) :
    Except PyErr (ℝ × ℝ × ℕ) :=
  (coerceSamples samples).bind fun ss => wheelerOf ss sf

/-- `scipy.stats.rankdata(x)`: average ranks. -/
noncomputable def rankAvg (l : List ℝ) : List ℝ :=
  l.map fun x => ((l.countP fun y => decide (y < x) : ℕ) : ℝ) + ((l.count x : ℝ) + 1) / 2

/-- `wallraff_test` once the distances are known: hypothesis.py 1274-1296; returns `(U, pval)`. `d1`,
`d2` are the distances of the unexpanded angles, `n1`, `n2` the total weights. -/
noncomputable def wallraffOf (d1 d2 : List ℝ) (n1 n2 : ℕ) (sf : ℝ → ℝ) : ℝ × ℝ :=
  let rs := rankAvg (d1 ++ d2)
  let N : ℝ := n1 + n2
  let prod : ℝ := n1 * n2
  let R1 := (rs.take n1).sum
  let U1 := prod + n1 * ((n1 : ℝ) + 1) / 2 - R1
  let U2 := prod - U1
  let U := min U1 U2
  let z := (U - prod / 2 + 0.5) / sqrt (prod * (N + 1) / 12)
  (U, 2 * sf |z|)

/-- `wallraff_test(samples, angle)`: hypothesis.py 1230-1296; `angles` is `angle` as an array (a scalar
is a one-element list in the model and is repeated). -/
noncomputable def wallraff (samples : List (List ℝ × List ℝ)) (angles : List ℝ) (sf : ℝ → ℝ) :
    Except PyErr (ℝ × ℝ) :=
  (coerceSamples samples).bind fun ss =>
    match ss, angles with
    | [s1, s2], [a] => .ok (wallraffOf (s1.alpha.map fun x => angularDistance x a)
        (s2.alpha.map fun x => angularDistance x a) s1.n s2.n sf)
    | [s1, s2], [a1, a2] => .ok (wallraffOf (s1.alpha.map fun x => angularDistance x a1)
        (s2.alpha.map fun x => angularDistance x a2) s1.n s2.n sf)
    | _, _ => .error .valueError

/-- `CircularAnovaResult`, `none` for `nan`/infinite numbers. `ss` is empty for the LRT. -/
structure AnovaResult where
  mu : List (Option ℝ)
  muAll : Option ℝ
  kappa : ℝ
  R : List ℝ
  Rall : ℝ
  df : List ℤ
  statistic : Option ℝ
  pval : Option ℝ
  SS : List ℝ
  MS : List (Option ℝ)

/-- `circ_r(group) * len(group)`: hypothesis.py 1347, 1354; `nan` for an empty group. -/
noncomputable def groupR (g : List ℝ) : Option ℝ := (circR g (ones g)).map fun r => r * g.length

/-- F statistic: hypothesis.py 1373-1380. -/
noncomputable def anovaF (ssB ssW kappa : ℝ) (dfB dfW : ℤ) (fmod : Bool) : Option ℝ :=
  (pydiv ssB dfB).bind fun msB => (pydiv ssW dfW).bind fun msW =>
    (pydiv msB msW).bind fun q =>
      if fmod then (pydiv 3 (8 * kappa)).map fun c => (1 + c) * q else some q

/-- The two methods of `circ_anova`, given the group resultants: hypothesis.py 1362-1423. `fcdf`,
`chicdf` are `f.cdf` and `chi2.cdf`. -/
noncomputable def anovaOf (samples : List (List ℝ)) (Rs : List ℝ) (Rall kappa : ℝ) (method : String)
    (fmod : Bool) (fcdf : ℝ → ℤ → ℤ → ℝ) (chicdf : ℝ → ℤ → ℝ) : Except PyErr AnovaResult :=
  let k : ℤ := samples.length
  let all := samples.flatten
  let N : ℕ := all.length
  let mus := samples.map fun g => circMean g (ones g)
  let muAll := circMean all (ones all)
  if method = "F-test" then
    let ssB := Rs.sum - Rall
    let ssW := N - Rs.sum
    let ssT := N - Rall
    let F := anovaF ssB ssW kappa (k - 1) (N - k) fmod
    .ok { mu := mus, muAll := muAll, kappa := kappa, R := Rs, Rall := Rall,
          df := [k - 1, N - k, (N : ℤ) - 1], statistic := F,
          pval := F.map fun x => 1 - fcdf x (k - 1) (N - k), SS := [ssB, ssW, ssT],
          MS := [pydiv ssB ((k - 1 : ℤ) : ℝ), pydiv ssW ((N - k : ℤ) : ℝ)] }
  else if method = "LRT" then
    let stat := (pydiv 1 (4 * kappa)).bind fun q => muAll.bind fun m =>
      (mus.mapM id).map fun mus =>
        let term1 := 1 - q * ((samples.map fun g => 1 / (g.length : ℝ)).sum - 1 / N)
        let term2 := 2 * kappa * (List.zipWith (fun R mu => R * (1 - cos (mu - m))) Rs mus).sum
        term1 * term2
    .ok { mu := mus, muAll := muAll, kappa := kappa, R := Rs, Rall := Rall, df := [k - 1],
          statistic := stat, pval := stat.map fun x => 1 - chicdf x (k - 1), SS := [], MS := [] }
  else .error .valueError

/-- `circ_anova(samples, method, kappa, f_mod)`: hypothesis.py 1299-1442. The groups are not empty (an
empty group makes every number `nan`: `.ok none`). -/
noncomputable def circAnova (samples : List (List ℝ)) (method : String) (kappa : Option ℝ)
    (fmod : Bool) (fcdf : ℝ → ℤ → ℤ → ℝ) (chicdf : ℝ → ℤ → ℝ) :
    Except PyErr (Option AnovaResult) :=
  if samples.length < 2 then .error .valueError
  else match samples.mapM groupR, groupR samples.flatten with
    | some Rs, some Rall =>
      let kappa := kappa.getD (circKappa (Rall / samples.flatten.length) none)
      (anovaOf samples Rs Rall kappa method fmod fcdf chicdf).map some
    | _, _ => if method = "F-test" ∨ method = "LRT" then .ok none else .error .valueError

/-- `art_statistic(S1, S2)`: hypothesis.py 1491-1513 (not both empty). -/
noncomputable def artStatistic (S1 S2 : List ℝ) : ℝ :=
  let n : ℝ := S1.length
  let m : ℝ := S2.length
  sqrt (n * m / (n + m)) * (S1.map fun a => (S2.map fun b => geodesic a b).sum).sum

/-- The counting loop of `angular_randomisation_test`: hypothesis.py 1518-1550; `perms` are the
permuted data sets drawn. -/
noncomputable def artExtreme (perms : List (List ℝ)) (n1 : ℕ) (observed : ℝ) : ℕ :=
  perms.foldl (fun c p => if observed ≤ artStatistic (p.take n1) (p.drop n1) then c + 1 else c) 1

/-- `angular_randomisation_test(samples, n_simulation)`: hypothesis.py 1445-1564; returns the
statistic and the p value. -/
noncomputable def artTest (samples : List (List ℝ × List ℝ)) (nSim : ℤ) (perms : List (List ℝ)) :
    Except PyErr (ℝ × ℝ) :=
  (coerceSamples samples).bind fun ss =>
    match ss with
    | [s1, s2] =>
      if nSim ≤ 0 then .error .valueError
      else
        let observed := artStatistic s1.alpha s2.alpha
        .ok (observed, (artExtreme perms s1.alpha.length observed : ℝ) / (nSim + 1))
    | _ => .error .valueError

end Verif
