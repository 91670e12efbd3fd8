import Verif.Model.DistVonMises

/-! # Model of the Jones-Pewsey family and its sine-skewed extension:
`pycircstat2/distributions.py` lines 4678-5459 and 5467-5946

`scipy.special.lpmv(0, nu, z)` is the parameter `lpmv`, with `none` for `nan`, infinities and a raised
`ValueError`. `quad_vec` is the exact integral. The overflow fallback of `_jp_kernel_base` (5332-5341,
taken for `|kappa psi|` above about 710) has no counterpart over the reals. Parameters are scalars
(`_jp_ensure_scalar`, 5307-5319). The caches of normalisers and series have the full parameter tuple as
key and are recomputations here (C73 is about those caches). -/

set_option autoImplicit false

namespace Verif

open Real

/-- `_JP_KAPPA_TOL`: distributions.py 5301. -/
noncomputable def jpKappaTol : ℝ := 1 / 10 ^ 3

/-- `_JP_PSI_TOL`: distributions.py 5302. -/
noncomputable def jpPsiTol : ℝ := 1 / 10 ^ 6

/-- `_jp_kernel_base(phi, kappa, psi)`: distributions.py 5322-5345. -/
noncomputable def jpKernel (phi kappa psi : ℝ) : ℝ :=
  if |psi| < jpPsiTol then exp (kappa * cos phi)
  else (max (cosh (kappa * psi) + sinh (kappa * psi) * cos phi) floatTiny) ^ (1 / psi)

/-- `_jp_legendre_normalizer(kappa, psi)`: distributions.py 5443-5459. -/
noncomputable def jpLegendre (lpmv : ℝ → ℝ → Option ℝ) (kappa psi : ℝ) : Option ℝ :=
  match lpmv (1 / psi) (cosh (kappa * psi)) with
  | none => none
  | some v => if v ≤ 0 then none else some (1 / (2 * π * v))

/-- The fallback `1 / quad_vec(kernel, -π, π)`: distributions.py 5432-5440. -/
noncomputable def jpQuadConst (mu kappa psi : ℝ) : ℝ :=
  1 / ∫ x in (-π)..π, jpKernel (x - mu) kappa psi

/-- `_c_jonespewsey(mu, kappa, psi)`: distributions.py 5421-5440. -/
noncomputable def jpConst (lpmv : ℝ → ℝ → Option ℝ) (mu kappa psi : ℝ) : ℝ :=
  if kappa < jpKappaTol then 1 / (2 * π)
  else if |psi| < jpPsiTol then 1 / (2 * π * besselI 0 kappa)
  else
    match jpLegendre lpmv kappa psi with
    | none => jpQuadConst mu kappa psi
    | some c => if 1 / 10 ^ 12 ≤ c ∧ c ≤ 10 ^ 6 then c else jpQuadConst mu kappa psi

/-- `jonespewsey._pdf(x, mu, kappa, psi)`: distributions.py 4719-4741. -/
noncomputable def jpPdf (lpmv : ℝ → ℝ → Option ℝ) (x mu kappa psi : ℝ) : ℝ :=
  if |kappa| < jpKappaTol then 1 / (2 * π)
  else if |psi| < jpPsiTol then jpConst lpmv mu kappa psi * exp (kappa * cos (x - mu))
  else jpConst lpmv mu kappa psi * jpKernel (x - mu) kappa psi

/-! ## The Fourier series: lines 5072-5146 -/

/-- The grid `np.linspace(-π, π, 4096, endpoint=False)`: distributions.py 5078. -/
noncomputable def jpGrid (j : ℕ) : ℝ := -π + j * (2 * π / 4096)

/-- Cosine coefficient `n ≥ 1` of the density at `mu = 0`, by the rectangle rule, clipped:
distributions.py 5078-5088. -/
noncomputable def jpCosCoeff (lpmv : ℝ → ℝ → Option ℝ) (kappa psi : ℝ) (n : ℕ) : ℝ :=
  clip (2 * π / 4096 * ∑ j ∈ Finset.range 4096,
    cos (n * jpGrid j) * jpPdf lpmv (pymod (jpGrid j) (2 * π)) 0 kappa psi) (-1) 1

open Classical in
/-- The number of harmonics kept (of at most 256): up to the last one whose contribution exceeds
`5e-12`, at least one. distributions.py 5097-5106. `c n` is the coefficient of harmonic `n`. -/
noncomputable def jpKept (c : ℕ → ℝ) : ℕ :=
  max 1 (Finset.sup ((Finset.range 256).filter fun i => 5 / 10 ^ 12 < |c (i + 1) / ((i + 1 : ℕ) : ℝ)|)
    fun i => i + 1)

/-- `_jp_series_cumulative(phi, n_idx, coeffs)` with `N` harmonics: distributions.py 5112-5119. -/
noncomputable def jpH (c : ℕ → ℝ) (N : ℕ) (phi : ℝ) : ℝ :=
  phi / (2 * π) + (∑ i ∈ Finset.range N, sin (phi * ((i + 1 : ℕ) : ℝ)) * (c (i + 1) / ((i + 1 : ℕ) : ℝ))) / π

/-- `_jp_series_skew_integral(phi, n_idx, coeffs)` with `N` harmonics: distributions.py 5122-5146. -/
noncomputable def jpJ (c : ℕ → ℝ) (N : ℕ) (phi : ℝ) : ℝ :=
  (1 - cos phi) / (2 * π) + (∑ i ∈ Finset.range N,
    if i = 0 then c 1 * ((1 - cos (2 * phi)) / 4)
    else 1 / 2 * ((1 - cos (phi * ((i + 1 : ℕ) : ℝ) + phi)) / (((i + 1 : ℕ) : ℝ) + 1)
      - (1 - cos (phi * ((i + 1 : ℕ) : ℝ) - phi)) / (((i + 1 : ℕ) : ℝ) - 1)) * c (i + 1)) / π

/-- The cdf from a series with coefficients `c` and `N` harmonics: distributions.py 4802-4812. -/
noncomputable def jpSeriesCdf (c : ℕ → ℝ) (N : ℕ) (x mu : ℝ) : ℝ :=
  let phiStart := pymod (-mu) (2 * π)
  let phiEnd := pymod (x - mu) (2 * π)
  if phiStart ≤ phiEnd then clip (jpH c N phiEnd - jpH c N phiStart) 0 1
  else clip (1 - (jpH c N phiStart - jpH c N phiEnd)) 0 1

/-- The cdf of the skewed family from a series: distributions.py 5587-5613. -/
noncomputable def jssSeriesCdf (c : ℕ → ℝ) (N : ℕ) (x xi lmbd : ℝ) : ℝ :=
  let phiStart := pymod (-xi) (2 * π)
  let phiEnd := pymod (x - xi) (2 * π)
  let jStart := if 0 < |lmbd| then jpJ c N phiStart else 0
  let jEnd := if 0 < |lmbd| then jpJ c N phiEnd else 0
  let base := if phiStart ≤ phiEnd then jpH c N phiEnd - jpH c N phiStart
    else 1 - (jpH c N phiStart - jpH c N phiEnd)
  let skew := if phiStart ≤ phiEnd then jEnd - jStart else -(jStart - jEnd)
  clip (base + lmbd * skew) 0 1

/-! ## Jones-Pewsey -/

/-- The shape parameters `(mu, kappa, psi)`. -/
structure JP where
  mu : ℝ
  kappa : ℝ
  psi : ℝ

/-- The functions of scipy and the numerical fallback of `vonmises.cdf` used below. -/
structure JPEnv where
  lpmv : ℝ → ℝ → Option ℝ
  ndtri : ℝ → ℝ
  numCdf : ℝ → ℝ → ℝ → ℝ

/-- `vonmises.cdf(x, mu, kappa)`, with `nan` replaced by 0. -/
noncomputable def jpVmCdf (E : JPEnv) (x mu kappa : ℝ) : ℝ :=
  (distCdf (vonmises E.numCdf) x (mu, kappa)).getD 0

/-- `jonespewsey._cdf(x, mu, kappa, psi)`: distributions.py 4776-4814. (The handler at 4798-4800 guards
a call that does not raise.) -/
noncomputable def jpCdf (E : JPEnv) (x : ℝ) (s : JP) : ℝ :=
  let w := wrap2pi x
  if s.kappa < jpKappaTol then pymod w (2 * π) / (2 * π)
  else if |s.psi| < jpPsiTol then jpVmCdf E w s.mu s.kappa
  else
    let c := jpCosCoeff E.lpmv s.kappa s.psi
    jpSeriesCdf c (jpKept c) w s.mu

/-- `jonespewsey`: `_argcheck` at distributions.py 4703-4717. The quantile method is `jpPpf` below; here
the field is not used. -/
noncomputable def jonespewsey (E : JPEnv) : Family JP where
  argcheck s := (0 ≤ s.mu ∧ s.mu ≤ 2 * π) ∧ 0 ≤ s.kappa
  pdf x s := jpPdf E.lpmv x s.mu s.kappa s.psi
  cdf x s := jpCdf E x s
  ppf _ _ := 0

/-- `_ppf(q, mu, kappa, psi)` for an array of probabilities strictly between 0 and 1: distributions.py
4846-4949. For `|psi|` below the tolerance the quantile of the von Mises distribution is used. -/
noncomputable def jpPpf (E : JPEnv) (qs : List ℝ) (s : JP) : List ℝ :=
  let qc := qs.map fun q => clip q (1 / 10 ^ 15) (1 - 1 / 10 ^ 15)
  if s.kappa < jpKappaTol then qc.map fun q => 2 * π * q
  else if |s.psi| < jpPsiTol then vmPpf E.ndtri E.numCdf qc s.mu s.kappa
  else brSolve (fun t => (distCdf (jonespewsey E) t s).getD 0)
    (fun t => (distPdf (jonespewsey E) t s).getD 0) (fun x => clip x 0 (2 * π)) 8 30
    (qc.map fun q => (q, 2 * π * q))

/-! ## The sine-skewed extension -/

/-- The shape parameters `(xi, kappa, psi, lmbd)`. -/
structure JSS where
  xi : ℝ
  kappa : ℝ
  psi : ℝ
  lmbd : ℝ

/-- `jonespewsey_sineskewed._pdf(x, xi, kappa, psi, lmbd)`: distributions.py 5508-5527. -/
noncomputable def jssPdf (lpmv : ℝ → ℝ → Option ℝ) (x : ℝ) (s : JSS) : ℝ :=
  if |s.kappa| < jpKappaTol then 1 / (2 * π) * (1 + s.lmbd * sin (x - s.xi))
  else jpConst lpmv s.xi s.kappa s.psi * jpKernel (x - s.xi) s.kappa s.psi
    * (1 + s.lmbd * sin (x - s.xi))

/-- `jonespewsey_sineskewed._cdf(x, xi, kappa, psi, lmbd)`: distributions.py 5561-5613. -/
noncomputable def jssCdf (E : JPEnv) (x : ℝ) (s : JSS) : ℝ :=
  let w := wrap2pi x
  if s.kappa < jpKappaTol then
    let phi := pymod (w - s.xi) (2 * π)
    clip (phi / (2 * π) + s.lmbd * ((1 - cos phi) / (2 * π))) 0 1
  else if |s.psi| < jpPsiTol ∧ |s.lmbd| < 1 / 10 ^ 12 then
    (distCdf (jonespewsey E) w ⟨s.xi, s.kappa, s.psi⟩).getD 0
  else
    let c := jpCosCoeff E.lpmv s.kappa s.psi
    jssSeriesCdf c (jpKept c) w s.xi s.lmbd

/-- `jonespewsey_sineskewed`: `_argcheck` at distributions.py 5490-5506. The quantile method is `jssPpf`
below; here the field is not used. -/
noncomputable def jonespewseySineskewed (E : JPEnv) : Family JSS where
  argcheck s := (0 ≤ s.xi ∧ s.xi ≤ 2 * π) ∧ 0 ≤ s.kappa ∧ -1 ≤ s.lmbd ∧ s.lmbd ≤ 1
  pdf x s := jssPdf E.lpmv x s
  cdf x s := jssCdf E x s
  ppf _ _ := 0

/-- `_ppf(q, xi, kappa, psi, lmbd)` for an array of probabilities strictly between 0 and 1:
distributions.py 5625-5729. -/
noncomputable def jssPpf (E : JPEnv) (qs : List ℝ) (s : JSS) : List ℝ :=
  let s := { s with xi := pymod s.xi (2 * π) }
  let qc := qs.map fun q => clip q (1 / 10 ^ 15) (1 - 1 / 10 ^ 15)
  if s.kappa < jpKappaTol then qc.map fun q => 2 * π * q
  else if |s.lmbd| < 1 / 10 ^ 12 then jpPpf E qc ⟨s.xi, s.kappa, s.psi⟩
  else brSolve (fun t => (distCdf (jonespewseySineskewed E) t s).getD 0)
    (fun t => (distPdf (jonespewseySineskewed E) t s).getD 0) (fun x => clip x 0 (2 * π)) 8 30
    (qc.map fun q => (q, 2 * π * q))

open Classical in
/-- One trial of the sampler with the proposal `theta` from the symmetric family and the uniform draw
`u`: distributions.py 5763-5773; `none` when the proposal is rejected. -/
noncomputable def jssTrial (s : JSS) (theta u : ℝ) : Option ℝ :=
  if u ≤ (1 + s.lmbd * sin (theta - pymod s.xi (2 * π))) / (1 + |s.lmbd|) then some theta else none

/-- `_rvs` for one sample: distributions.py 5742-5779: the first accepted of the given trials (`none`
when none of them is accepted). -/
noncomputable def jssRvs (s : JSS) (trials : List (ℝ × ℝ)) : Except PyErr (Option ℝ) :=
  if 1 ≤ |s.lmbd| then .error .valueError
  else .ok (trials.findSome? fun t => jssTrial s t.1 t.2)

/-! ## Estimation -/

open Classical in
/-- The objective of `jonespewsey.fit`: distributions.py 5228-5238; `none` stands for `inf`. `pdf` is
`self.pdf` on one observation, `kb` and `pb` the bounds. -/
noncomputable def jpNll (pdf : ℝ → JP → ℝ) (kb pb : ℝ × ℝ) (x w : List ℝ) (s : JP) : Option ℝ :=
  if ¬ (kb.1 ≤ s.kappa ∧ s.kappa ≤ kb.2) then none
  else if ¬ (pb.1 ≤ s.psi ∧ s.psi ≤ pb.2) then none
  else
    let s' := { s with mu := pymod s.mu (2 * π) }
    if ∃ xi ∈ x, pdf xi s' ≤ 0 then none
    else some (-(List.zipWith (fun xi wi => wi * log (pdf xi s')) x w).sum)

/-- The estimate built from the optimiser's answer: distributions.py 5274-5278. -/
noncomputable def jpEstimate (kb pb : ℝ × ℝ) (p : Fin 3 → ℝ) : JP :=
  ⟨wrapDirection (p 0), clip (p 1) kb.1 kb.2, clip (p 2) pb.1 pb.2⟩

/-- `a < b` for objective values with `inf` (`none`). -/
def infLt : Option ℝ → Option ℝ → Prop
  | some a, some b => a < b
  | some _, none => True
  | none, _ => False

open Classical in
/-- The starting value of `psi`: distributions.py 5225-5226, 5240-5246: 0 or the best of nine grid
values. -/
noncomputable def jpPsiInit (nll : JP → Option ℝ) (pb : ℝ × ℝ) (mu kappa : ℝ) : ℝ :=
  ((List.range 9).foldl (fun (acc : ℝ × Option ℝ) i =>
    let cand := pb.1 + i * ((pb.2 - pb.1) / 8)
    let score := nll ⟨mu, kappa, cand⟩
    if infLt score acc.2 then (cand, score) else acc) (0, nll ⟨mu, kappa, 0⟩)).1

/-- `jonespewsey.fit(data, weights, method, psi_bounds, kappa_bounds)`: distributions.py 5199-5291;
`method` stands for the lower-cased name, `rnd` for Python's `round`, `minimize` for scipy's optimiser
given objective and start. -/
noncomputable def jpFit (E : JPEnv) (minimize : (JP → Option ℝ) → JP → MinResult 3) (rnd : ℝ → ℤ)
    (data : List ℝ) (weights : Option (List ℝ)) (method : String) (kb pb : ℝ × ℝ) :
    Except PyErr JP := do
  let x := data.map wrap2pi
  if x.length = 0 then .error .valueError
  else
    let w ← fitWeights x.length weights
    let muMom := (fitStart x w).1
    let r1 := clip (fitStart x w).2 (1 / 10 ^ 12) (1 - 1 / 10 ^ 12)
    let nAdjust := (max 1 (rnd w.sum)).toNat
    let kappaMom := clip (circKappa r1 (some nAdjust)) kb.1 kb.2
    let nll := jpNll (fun y s => (distPdf (jonespewsey E) y s).getD 0) kb pb x w
    let psiInit := jpPsiInit nll pb muMom kappaMom
    let key := if method = "analytical" then "moments" else
      if method = "numerical" then "mle" else method
    if ¬ (key = "moments" ∨ key = "mle") then .error .valueError
    else if key = "moments" then .ok ⟨wrapDirection muMom, kappaMom, 0⟩
    else
      let result := minimize nll ⟨muMom, kappaMom, psiInit⟩
      if ¬ result.success then .error .runtimeError
      else .ok (jpEstimate kb pb result.x)

open Classical in
/-- The objective for the skewness parameter: distributions.py 5852-5858; `none` stands for `inf`. -/
noncomputable def jssLambdaNll (lb : ℝ × ℝ) (xi : ℝ) (x w : List ℝ) (lmbd : ℝ) : Option ℝ :=
  if ¬ (lb.1 < lmbd ∧ lmbd < lb.2) then none
  else if ∃ y ∈ x, 1 + lmbd * sin (y - xi) ≤ 0 then none
  else some (-(List.zipWith (fun y wi => wi * log (1 + lmbd * sin (y - xi))) x w).sum)

open Classical in
/-- The objective of the refinement: distributions.py 5896-5908. -/
noncomputable def jssNll (pdf : ℝ → JSS → ℝ) (kb pb lb : ℝ × ℝ) (x w : List ℝ) (s : JSS) : Option ℝ :=
  if ¬ (kb.1 ≤ s.kappa ∧ s.kappa ≤ kb.2) then none
  else if ¬ (pb.1 ≤ s.psi ∧ s.psi ≤ pb.2) then none
  else if ¬ (lb.1 < s.lmbd ∧ s.lmbd < lb.2) then none
  else
    let s' := { s with xi := pymod s.xi (2 * π) }
    if ∃ y ∈ x, pdf y s' ≤ 0 then none
    else some (-(List.zipWith (fun y wi => wi * log (pdf y s')) x w).sum)

/-- `jonespewsey_sineskewed.fit(...)`: distributions.py 5819-5943. `minScalar` is
`scipy.optimize.minimize_scalar(method="bounded")` (success flag and point), `minimize3`, `minimize4` the
optimisers of the base fit and the refinement. -/
noncomputable def jssFit (E : JPEnv) (minimize3 : (JP → Option ℝ) → JP → MinResult 3)
    (minScalar : (ℝ → Option ℝ) → ℝ × ℝ → Bool × ℝ)
    (minimize4 : (JSS → Option ℝ) → JSS → MinResult 4) (rnd : ℝ → ℤ)
    (data : List ℝ) (weights : Option (List ℝ)) (method : String) (refine : Bool) (kb pb lb : ℝ × ℝ) :
    Except PyErr JSS := do
  let x := data.map wrap2pi
  if x.length = 0 then .error .valueError
  else
    let w ← fitWeights x.length weights
    let base ← jpFit E minimize3 rnd x (some w) "mle" kb pb
    let lr := minScalar (jssLambdaNll lb base.mu x w) lb
    if ¬ lr.1 then .error .runtimeError
    else
      let lmbd := clip lr.2 lb.1 lb.2
      let key := if method = "twostep" ∨ method = "two_step" then "two-step" else method
      if ¬ (key = "two-step" ∨ key = "mle") then .error .valueError
      else if key = "mle" ∨ refine = true then
        let result := minimize4
          (jssNll (fun y s => (distPdf (jonespewseySineskewed E) y s).getD 0) kb pb lb x w)
          ⟨base.mu, base.kappa, base.psi, lmbd⟩
        if ¬ result.success then .error .runtimeError
        else .ok ⟨wrapDirection (result.x 0), clip (result.x 1) kb.1 kb.2, clip (result.x 2) pb.1 pb.2,
          clip (result.x 3) lb.1 lb.2⟩
      else .ok ⟨base.mu, base.kappa, base.psi, lmbd⟩

end Verif
