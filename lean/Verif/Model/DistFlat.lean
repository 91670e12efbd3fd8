import Verif.Model.DistTable
import Verif.Model.DistJonesPewsey

/-! # Model of the flat-topped von Mises distribution: `pycircstat2/distributions.py` lines 3905-4675

Parameters are scalars (`_vmft_ensure_scalar`, 4663-4675). The cache of tables (4542-4553) has the full
parameter tuple as key and holds recomputations. -/

set_option autoImplicit false

namespace Verif

open Real

/-- The shape parameters `(mu, kappa, nu)`. -/
structure VMFT where
  mu : ℝ
  kappa : ℝ
  nu : ℝ

/-- `_VMFT_KAPPA_TOL`, `_VMFT_KAPPA_UPPER`: distributions.py 52-53. -/
noncomputable def vmftKappaTol : ℝ := 1 / 10 ^ 9
noncomputable def vmftKappaUpper : ℝ := 10 ^ 3

/-- `_vmft_grid_size(kappa, nu)`: distributions.py 4591-4600. -/
noncomputable def vmftGridSize (kappa nu : ℝ) : ℕ := tabSize ((1 + |nu|) * √(max kappa 0 + 1))

/-- The logarithm of the kernel: distributions.py 3970, 4608. -/
noncomputable def vmftLogKernel (kappa nu phi : ℝ) : ℝ := kappa * cos (phi + nu * sin phi)

/-- The trapezoid weights: distributions.py 4611-4613. -/
noncomputable def vmftWeight (N j : ℕ) : ℝ := if j = 0 ∨ j = N then 1 / 2 else 1

/-- `log_normalizer` of `_vmft_build_table(kappa, nu, N)`: distributions.py 4607-4616. -/
noncomputable def vmftLogNorm (kappa nu : ℝ) (N : ℕ) : ℝ :=
  let logMax := (Finset.range (N + 1)).sup' ⟨0, by simp⟩ fun j => vmftLogKernel kappa nu (tabGrid N j)
  let logSum := log (∑ j ∈ Finset.range (N + 1), vmftWeight N j * exp (vmftLogKernel kappa nu (tabGrid N j) - logMax));
  -(log (2 * π / N) + logMax + logSum)

/-- The tabulated density: distributions.py 4619-4622. -/
noncomputable def vmftTable (kappa nu : ℝ) (N : ℕ) (j : ℕ) : ℝ :=
  let at' := fun i => max (exp (clip (vmftLogKernel kappa nu (tabGrid N i) + vmftLogNorm kappa nu N) (-700) 700)) floatTiny
  if j = N then at' 0 else at' j

/-- `_pdf(x, mu, kappa, nu)`: distributions.py 3955-3974. -/
noncomputable def vmftPdf (x : ℝ) (s : VMFT) : ℝ :=
  let kappa := clip s.kappa 0 vmftKappaUpper
  if kappa ≤ vmftKappaTol then 1 / (2 * π)
  else exp (vmftLogKernel kappa s.nu (tabRel x s.mu) + vmftLogNorm kappa s.nu (vmftGridSize kappa s.nu))

open Classical in
/-- `_cdf(x, mu, kappa, nu)`: distributions.py 4022-4061. -/
noncomputable def vmftCdf (x : ℝ) (s : VMFT) : ℝ :=
  let w := wrap2pi x
  let kappa := clip s.kappa 0 vmftKappaUpper
  let N := vmftGridSize kappa s.nu
  if kappa ≤ vmftKappaTol then (if isclose w (2 * π) 0 (1 / 10 ^ 12) then 1 else w / (2 * π))
  else tabCdf N (vmftTable kappa s.nu N) s.mu w

open Classical in
/-- `_ppf(q, mu, kappa, nu)` for one probability of `[0, 1]`: distributions.py 4063-4156. -/
noncomputable def vmftPpf (guess : ℝ → ℝ) (q : ℝ) (s : VMFT) : ℝ :=
  let N := vmftGridSize s.kappa s.nu
  if s.kappa ≤ vmftKappaTol then
    (if isclose q 1 0 (1 / 10 ^ 12) then 2 * π else if isclose q 0 0 (1 / 10 ^ 12) then 0
      else pymod (2 * π * q) (2 * π))
  else tabPpf N (vmftTable s.kappa s.nu N)
    (fun phi => exp (vmftLogKernel s.kappa s.nu phi + vmftLogNorm s.kappa s.nu N)) guess 50 s.mu q

/-- `vonmises_flattopped`: `_argcheck` at distributions.py 3933-3948. `guess` is the starting value of the
quantile search (`inv_cdf_interp`, 4107-4111, 4632-4636). -/
noncomputable def vonmisesFlattopped (guess : ℝ → ℝ) : Family VMFT where
  argcheck s := (0 ≤ s.mu ∧ s.mu ≤ 2 * π) ∧ (0 ≤ s.kappa ∧ s.kappa ≤ vmftKappaUpper) ∧ -1 ≤ s.nu ∧ s.nu ≤ 1
  pdf x s := vmftPdf x s
  cdf x s := vmftCdf x s
  ppf q s := vmftPpf guess q s

/-- `vonmises_flattopped.pdf(x, mu, kappa, nu)`: distributions.py 4017-4020: the concentration is clipped
before anything else. -/
noncomputable def vmftPdfMethod (guess : ℝ → ℝ) (x : ℝ) (s : VMFT) : Option ℝ :=
  distPdf (vonmisesFlattopped guess) x { s with kappa := clip s.kappa 0 vmftKappaUpper }

/-- `vonmises_flattopped.cdf(x, mu, kappa, nu)`: distributions.py 4537-4540. -/
noncomputable def vmftCdfMethod (guess : ℝ → ℝ) (x : ℝ) (s : VMFT) : Option ℝ := distCdf (vonmisesFlattopped guess) x s

/-- `vonmises_flattopped.ppf(q, mu, kappa, nu)`: distributions.py 4186-4189. -/
noncomputable def vmftPpfMethod (guess : ℝ → ℝ) (q : ℝ) (s : VMFT) : Option ℝ := distPpf (vonmisesFlattopped guess) q s

/-! ## The sampler: lines 4191-4256, 4555-4581 -/

/-- `kappa_env`: distributions.py 4562. -/
noncomputable def vmftEnvKappa (kappa nu : ℝ) : ℝ := clip (kappa * (1 + nu) ^ 2) (1 / 10 ^ 6) vmftKappaUpper

/-- `log_env_norm`: distributions.py 4564-4568 (`i0e(k)` is `exp(-k) I₀(k)`). -/
noncomputable def vmftLogEnvNorm (k : ℝ) : ℝ := log (2 * π) + log (exp (-k) * besselI 0 k) + k

/-- `log_multiplier`: distributions.py 4569-4577. -/
noncomputable def vmftLogMultiplier (kappa nu : ℝ) : ℝ :=
  let N := vmftGridSize kappa nu
  let k := vmftEnvKappa kappa nu
  let logMult := (Finset.range (N + 1)).sup' ⟨0, by simp⟩ fun j =>
    log (vmftTable kappa nu N j) - (k * cos (tabGrid N j) - vmftLogEnvNorm k)
  log (exp logMult * (1 + 5 / 10 ^ 12))

open Classical in
/-- One trial of the sampler, with a proposal drawn from the von Mises distribution with mean `mu` and
concentration `kappa_env`, and a uniform draw `u`: distributions.py 4236-4247, 4252; `none` when the
proposal is rejected. -/
noncomputable def vmftTrial (s : VMFT) (proposal u : ℝ) : Option ℝ :=
  let N := vmftGridSize s.kappa s.nu
  let k := vmftEnvKappa s.kappa s.nu
  let phi := tabRel proposal (pymod s.mu (2 * π))
  let logTarget := vmftLogKernel s.kappa s.nu phi + vmftLogNorm s.kappa s.nu N
  let logEnv := k * cos phi - vmftLogEnvNorm k
  if log u ≤ logTarget - logEnv - vmftLogMultiplier s.kappa s.nu then some (pymod proposal (2 * π)) else none

/-! ## Estimation -/

/-- The objective of `fit`: distributions.py 4395-4419; `none` stands for `inf`. -/
noncomputable def vmftNll (kb nb : ℝ × ℝ) (x w : List ℝ) (s : VMFT) : Option ℝ :=
  if ¬ (0 ≤ s.mu ∧ s.mu ≤ 2 * π) then none
  else if ¬ (kb.1 ≤ s.kappa ∧ s.kappa ≤ kb.2) then none
  else if ¬ (nb.1 ≤ s.nu ∧ s.nu ≤ nb.2) then none
  else if s.kappa ≤ vmftKappaTol then some (-(w.map fun wi => wi * -log (2 * π)).sum)
  else some (-(List.zipWith (fun xi wi => wi * (vmftLogKernel s.kappa s.nu (tabRel xi (pymod s.mu (2 * π)))
    + vmftLogNorm s.kappa s.nu (vmftGridSize s.kappa s.nu))) x w).sum)

open Classical in
/-- The starting value of `nu`: distributions.py 4438-4444. `grid` are the candidates besides 0. -/
noncomputable def vmftNuInit (nll : VMFT → Option ℝ) (grid : List ℝ) (mu kappa : ℝ) : ℝ :=
  (((0 :: grid).mergeSort (fun a b => decide (a ≤ b))).dedup.foldl (fun (acc : ℝ × Option ℝ) cand =>
    let score := nll ⟨mu, kappa, cand⟩
    if infLt score acc.2 then (cand, score) else acc) (0, nll ⟨mu, kappa, 0⟩)).1

/-- The default candidates `np.linspace(max(nb.1, -0.9), min(nb.2, 0.9), 7)`: distributions.py 4388-4391. -/
noncomputable def vmftNuGrid (nb : ℝ × ℝ) : List ℝ :=
  (List.range 7).map fun i => max nb.1 (-9 / 10) + i * ((min nb.2 (9 / 10) - max nb.1 (-9 / 10)) / 6)

/-- `fit(data, weights, method, optimizer, nu_grid, kappa_bounds, nu_bounds)`: distributions.py 4358-4488;
`method` stands for the lower-cased name, `rnd` for Python's `round`, `minimize` for scipy's optimiser,
given the method's name, the objective and the start. -/
noncomputable def vmftFit (minimize : String → (VMFT → Option ℝ) → VMFT → MinResult 3) (rnd : ℝ → ℤ)
    (data : List ℝ) (weights : Option (List ℝ)) (method optimizer : String) (nuGrid : Option (List ℝ))
    (kb nb : ℝ × ℝ) : Except PyErr VMFT := do
  let x := data.map wrap2pi
  if x.length = 0 then .error .valueError
  else
    let w ← fitWeights x.length weights
    let muMom := (fitStart x w).1
    let r1 := clip (fitStart x w).2 (1 / 10 ^ 12) (1 - 1 / 10 ^ 12)
    let nAdjust := (max 1 (rnd w.sum)).toNat
    let kappaMom := clip (circKappa r1 (some nAdjust)) kb.1 kb.2
    let nll := vmftNll kb nb x w
    if method = "moments" then .ok ⟨muMom, kappaMom, 0⟩
    else if method ≠ "mle" then .error .valueError
    else
      let start : VMFT := ⟨muMom, kappaMom, vmftNuInit nll (nuGrid.getD (vmftNuGrid nb)) muMom kappaMom⟩
      let result := minimize optimizer nll start
      let result' := if result.success = false ∧ optimizer ≠ "Powell" then
          (let fb := minimize "Powell" nll start
           if fb.success then fb else result)
        else result
      if result'.success = false then .error .runtimeError
      else .ok ⟨wrapDirection (result'.x 0), clip (result'.x 1) kb.1 kb.2, clip (result'.x 2) nb.1 nb.2⟩

end Verif
