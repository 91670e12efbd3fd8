import Verif.Model.DistJonesPewsey
import Verif.Model.Pchip

/-! # Model of the asymmetric extended Jones-Pewsey family: `pycircstat2/distributions.py` lines 5953-6475

`quad_vec` is the exact integral. Parameters are scalars (`_jp_ensure_scalar`). The caches of normalisers, tables and
envelopes have the full parameter tuple as key (the direction modulo a turn) and are recomputations here. The sampler
draws its proposals from `vonmises.rvs` (model of one draw: the parameter `proposal`). -/

set_option autoImplicit false

namespace Verif

open Real

/-- The shape parameters `(xi, kappa, psi, nu)`. -/
structure JPA where
  xi : ℝ
  kappa : ℝ
  psi : ℝ
  nu : ℝ

/-- `_kernel_jonespewsey_asym(x, xi, kappa, psi, nu)`: distributions.py 6454-6458. -/
noncomputable def jpaKernel (x : ℝ) (s : JPA) : ℝ :=
  jpKernel (x - s.xi + s.nu * cos (x - s.xi)) s.kappa s.psi

/-- `_c_jonespewsey_asym(xi, kappa, psi, nu)`: distributions.py 6462-6475. -/
noncomputable def jpaConst (s : JPA) : ℝ :=
  if s.kappa < jpKappaTol then 1 / (2 * π) else 1 / ∫ x in (-π)..π, jpaKernel x s

/-- `_pdf(x, xi, kappa, psi, nu)`: distributions.py 5999-6018. -/
noncomputable def jpaPdf (x : ℝ) (s : JPA) : ℝ :=
  if |s.kappa| < jpKappaTol then 1 / (2 * π) else jpaConst s * jpaKernel x s

/-- `_argcheck`: distributions.py 5981-5997. -/
def jpaArgcheck (s : JPA) : Prop := (0 ≤ s.xi ∧ s.xi ≤ 2 * π) ∧ 0 ≤ s.kappa ∧ 0 ≤ s.nu ∧ s.nu < 1

/-- The family as far as `pdf` needs it. -/
noncomputable def jpaBase : Family JPA where
  argcheck := jpaArgcheck
  pdf := jpaPdf
  cdf _ _ := 0
  ppf _ _ := 0

/-! ## The table -/

/-- `np.interp(x, xs, ys, left, right)` with nodes `xs 0, …, xs n`. -/
noncomputable def npInterp (n : ℕ) (xs ys : ℕ → ℝ) (left right x : ℝ) : ℝ :=
  if x < xs 0 then left
  else if xs n < x then right
  else
    let i := pchipCell n xs x
    (ys (i + 1) - ys i) / (xs (i + 1) - xs i) * (x - xs i) + ys i

/-- `np.linspace(0, 2π, grid_size + 1)`: distributions.py 6322. -/
noncomputable def jpaGrid (N j : ℕ) : ℝ := j * (2 * π / N)

/-- The tabulated density: distributions.py 6323-6325. -/
noncomputable def jpaVals (s : JPA) (N j : ℕ) : ℝ :=
  (distPdf jpaBase (pymod (s.xi + jpaGrid N j) (2 * π)) s).getD 0

/-- The running sums before normalisation: distributions.py 6327-6331. -/
noncomputable def jpaTrap (N : ℕ) (f : ℕ → ℝ) (k : ℕ) : ℝ :=
  ∑ j ∈ Finset.range k, 1 / 2 * (f j + f (j + 1)) * (2 * π / N)

/-- `cdf_vals`: distributions.py 6327-6335. -/
noncomputable def jpaCumul (N : ℕ) (f : ℕ → ℝ) (k : ℕ) : ℝ :=
  let total := jpaTrap N f N
  jpaTrap N f k / (if total ≤ 0 then 1 else total)

/-- The interpolated table: distributions.py 6093-6096, `grid_size` being 4096 (6316). -/
noncomputable def jpaH (s : JPA) (phi : ℝ) : ℝ :=
  npInterp 4096 (jpaGrid 4096) (jpaCumul 4096 (jpaVals s 4096)) 0 1 phi

open Classical in
/-- `_cdf(x, xi, kappa, psi, nu)`: distributions.py 6073-6104. -/
noncomputable def jpaCdf (E : JPEnv) (x : ℝ) (s : JPA) : ℝ :=
  let w := wrap2pi x
  if s.kappa < jpKappaTol ∧ |s.nu| < 1 / 10 ^ 12 then
    (distCdf (jonespewsey E) w ⟨s.xi, s.kappa, s.psi⟩).getD 0
  else
    let phiStart := pymod (-s.xi) (2 * π)
    let phiEnd := pymod (w - s.xi) (2 * π)
    if phiStart ≤ phiEnd then clip (jpaH s phiEnd - jpaH s phiStart) 0 1
    else clip (1 - (jpaH s phiStart - jpaH s phiEnd)) 0 1

/-- `jonespewsey_asym`: `_argcheck` at distributions.py 5981-5997. The quantile method is `jpaPpf` below; here the
field is not used. -/
noncomputable def jonespewseyAsym (E : JPEnv) : Family JPA where
  argcheck := jpaArgcheck
  pdf := jpaPdf
  cdf := jpaCdf E
  ppf _ _ := 0

open Classical in
/-- `_ppf(q, xi, kappa, psi, nu)` for an array of probabilities strictly between 0 and 1: distributions.py
6117-6217. -/
noncomputable def jpaPpf (E : JPEnv) (qs : List ℝ) (s : JPA) : List ℝ :=
  let s := { s with xi := pymod s.xi (2 * π) }
  let qc := qs.map fun q => clip q (1 / 10 ^ 15) (1 - 1 / 10 ^ 15)
  if s.kappa < jpKappaTol ∧ s.nu < 1 / 10 ^ 12 then qc.map fun q => 2 * π * q
  else brSolve (fun t => (distCdf (jonespewseyAsym E) t s).getD 0)
    (fun t => (distPdf (jonespewseyAsym E) t s).getD 0) (fun x => clip x 0 (2 * π)) 8 30
    (qc.map fun q => (q, 2 * π * q))

/-! ## Sampling -/

/-- `_log_vonmises_pdf(theta, mu, kappa)`: distributions.py 5360-5366 (`i0e(k)` is `exp(-k) I₀(k)`). -/
noncomputable def logVonmisesPdf (theta mu kappa : ℝ) : ℝ :=
  if kappa < 1 / 10 ^ 8 then -log (2 * π)
  else kappa * cos (theta - mu) - (log (2 * π) + (kappa + log (exp (-kappa) * besselI 0 kappa)))

/-- `_jp_effective_kappa(kappa, psi)`: distributions.py 5348-5357. -/
noncomputable def jpEffectiveKappa (kappa psi : ℝ) : ℝ :=
  if |psi| < jpPsiTol then max kappa (1 / 10 ^ 6)
  else
    let eff := (1 - exp (-2 * (kappa * psi))) / (2 * psi)
    if eff ≤ 0 then max kappa (1 / 10 ^ 6) else eff

/-- `np.max(log_target - log_proposal)` over the grid `theta 0, …, theta (n-1)`: distributions.py 5379-5381. -/
noncomputable def envLogMax (n : ℕ) (hn : (Finset.range n).Nonempty) (theta logTarget : ℕ → ℝ) (mu k : ℝ) : ℝ :=
  (Finset.range n).sup' hn fun j => logTarget j - logVonmisesPdf (theta j) mu k

open Classical in
/-- `evaluate(candidates)`: distributions.py 5375-5386; the state is `(best_kappa, log_M_best)`, with `none` for `inf`,
and `ev` the maximum of the log ratio for a concentration. -/
noncomputable def envEvaluate (ev : ℝ → ℝ) (st : ℝ × Option ℝ) (cands : List ℝ) : ℝ × Option ℝ :=
  cands.foldl (fun st c =>
    let k := clip c (1 / 10 ^ 6) (10 ^ 4)
    if infLt (some (ev k)) st.2 then (k, some (ev k)) else st) st

open Classical in
/-- The candidates of the first round, sorted and without repetitions (`np.unique`): distributions.py 5388-5402. -/
noncomputable def envPool (g : ℝ) : List ℝ :=
  (([g, max (g * (1 / 2)) (1 / 10 ^ 6), g * 2, max (g * (1 / 4)) (1 / 10 ^ 6), g * 4, 1 / 2, 1, max g (3 / 2), max g 3].map
    fun c => clip c (1 / 10 ^ 6) (10 ^ 4)).dedup).insertionSort (· ≤ ·)

/-- `np.linspace(0.5 k, 1.5 k, num=7)`, clipped: distributions.py 5406-5407. -/
noncomputable def envSpan (k : ℝ) : List ℝ :=
  (List.range 7).map fun i => clip (k * (1 / 2) + i * (k / 6)) (1 / 10 ^ 6) (10 ^ 4)

/-- `_optimize_vonmises_envelope(theta, log_target, mu, initial_guess)`: distributions.py 5369-5413; returns
`(kappa_env, envelope_const)`. -/
noncomputable def envOptimize (ev : ℝ → ℝ) (guess : ℝ) : ℝ × ℝ :=
  let st0 := envEvaluate ev (max guess (1 / 10 ^ 6), none) (envPool guess)
  let st1 := envEvaluate ev st0 (envSpan st0.1)
  let st2 := envEvaluate ev st1 (envSpan st1.1)
  let st3 := envEvaluate ev st2 (envSpan st2.1)
  (st3.1, max (exp (st3.2.getD 0 + log (1 + 2 / 100))) (101 / 100))

/-- `_asym_sampler_envelope(xi, kappa, psi, nu)`: distributions.py 6293-6314. -/
noncomputable def jpaEnvelope (s : JPA) : ℝ × ℝ :=
  let theta := fun j => pymod (s.xi + jpaGrid 2048 j) (2 * π)
  let logTarget := fun j => log (max ((distPdf jpaBase (theta j) s).getD 0) floatTiny)
  envOptimize (envLogMax 2048 ⟨0, by simp⟩ theta logTarget s.xi)
    (max (jpEffectiveKappa s.kappa s.psi) (1 / 10 ^ 6))

open Classical in
/-- One trial of the sampler with the proposal drawn from the von Mises distribution with mean `xi` and concentration
`kappa_env`, whose density method is `vpdf`, and the uniform draw `u`: distributions.py 6264-6274; `none` when the
proposal is rejected. `xi` has been reduced modulo a turn (6232-6233). -/
noncomputable def jpaTrial (vpdf : ℝ → ℝ) (s : JPA) (proposal u : ℝ) : Option ℝ :=
  let target := (distPdf jpaBase proposal s).getD 0
  let ratio := if 0 < vpdf proposal then target / ((jpaEnvelope s).2 * vpdf proposal) else 0
  if u ≤ ratio then some proposal else none

/-! ## Estimation -/

open Classical in
/-- The objective of `fit`: distributions.py 6398-6410; `none` stands for `inf`. -/
noncomputable def jpaNll (pdf : ℝ → JPA → ℝ) (kb pb nb : ℝ × ℝ) (x w : List ℝ) (s : JPA) : Option ℝ :=
  if ¬ (kb.1 ≤ s.kappa ∧ s.kappa ≤ kb.2) then none
  else if ¬ (pb.1 ≤ s.psi ∧ s.psi ≤ pb.2) then none
  else if ¬ (nb.1 ≤ s.nu ∧ s.nu < nb.2) then none
  else
    let s' := { s with xi := pymod s.xi (2 * π) }
    if ∃ y ∈ x, pdf y s' ≤ 0 then none
    else some (-(List.zipWith (fun y wi => wi * log (pdf y s')) x w).sum)

/-- `jonespewsey_asym.fit(data, weights, psi_bounds, kappa_bounds, nu_bounds)`: distributions.py 6341-6448. `minimize3`
is the optimiser of the base fit, `minimize4` that of the refinement. (The `pdf` method returns `nan` for rejected
parameters; such a point has the objective `inf`, and the model gives it density 0, which does the same.) -/
noncomputable def jpaFit (E : JPEnv) (minimize3 : (JP → Option ℝ) → JP → MinResult 3)
    (minimize4 : (JPA → Option ℝ) → JPA → MinResult 4) (rnd : ℝ → ℤ)
    (data : List ℝ) (weights : Option (List ℝ)) (kb pb nb : ℝ × ℝ) : Except PyErr JPA := do
  let x := data.map wrap2pi
  if x.length = 0 then .error .valueError
  else
    let w ← fitWeights x.length weights
    let base ← jpFit E minimize3 rnd x (some w) "mle" kb pb
    let result := minimize4
      (jpaNll (fun y s => (distPdf (jonespewseyAsym E) y s).getD 0) kb pb nb x w)
      ⟨base.mu, base.kappa, base.psi, 0⟩
    if ¬ result.success then .error .runtimeError
    else .ok ⟨wrapDirection (result.x 0), clip (result.x 1) kb.1 kb.2, clip (result.x 2) pb.1 pb.2,
      clip (result.x 3) nb.1 (nb.2 - 1 / 10 ^ 9)⟩

end Verif
