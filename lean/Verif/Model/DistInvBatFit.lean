import Verif.Model.DistInvBat
import Verif.Model.DistJonesPewsey

/-! # Sampler and fit of the inverse Batschelet distribution: `pycircstat2/distributions.py` lines 6853-7214

Both read the density from tables, which the distribution object keeps by their parameters (`InvBatState.tables`). As long
as the caches are not cleared there is one table for every triple `(kappa, nu, lmbd)`, whenever it was built. -/

set_option autoImplicit false

namespace Verif

open Real

/-! ## The sampler -/

/-- `log_pdf`: distributions.py 6863, for the table `f`. -/
noncomputable def invbatLogPdf (f : ℕ → ℝ) (j : ℕ) : ℝ := log (max (f j) floatTiny)

/-- `kappa_env` for a table `f` with `N` cells, `N` even: distributions.py 6865-6884. The node nearest to 0 is the one in
the middle, where the angle is 0, and the steps are `2π/N`. -/
noncomputable def invbatEnvKappa (N : ℕ) (f : ℕ → ℝ) : ℝ :=
  let d2 := (invbatLogPdf f (N / 2 + 1) - 2 * invbatLogPdf f (N / 2) + invbatLogPdf f (N / 2 - 1)) / (2 * π / N) ^ 2
  clip (max (-d2) (1 / 10 ^ 3)) (1 / 10 ^ 6) invbatUpper

/-- `log_multiplier`: distributions.py 6885-6895. -/
noncomputable def invbatLogMultiplier (N : ℕ) (f : ℕ → ℝ) : ℝ :=
  let k := invbatEnvKappa N f
  let logMultiplier := (Finset.range (N + 1)).sup' ⟨0, by simp⟩ fun j =>
    invbatLogPdf f j + invbatLogMult k - k * cos (tabGrid N j)
  log (exp logMultiplier * (1 + 2 / 100))

open Classical in
/-- One trial of the sampler for a concentration above `1e-9`: distributions.py 6902, 6945-6955, 6965. The proposal is
drawn from the von Mises distribution with mean `xi` and concentration `kappa_env`, and `u` uniformly; `none` when the
proposal is rejected. `f` is the table with `N` cells. -/
noncomputable def invbatTrial (N : ℕ) (f : ℕ → ℝ) (xi proposal u : ℝ) : Option ℝ :=
  let k := invbatEnvKappa N f
  let phi := tabRel proposal (pymod xi (2 * π))
  let logTarget := log (max (pchip N (tabGrid N) f phi) floatTiny)
  let logEnv := k * cos phi - invbatLogMult k
  if log u ≤ logTarget - logEnv - invbatLogMultiplier N f then some (pymod proposal (2 * π)) else none

/-! ## Estimation -/

open Classical in
/-- The objective of `fit`: distributions.py 7123-7147; `none` stands for `inf`. `tab` are the tables of the object. -/
noncomputable def invbatNll (tab : ℝ → ℝ → ℝ → ℕ → ℝ) (kb nb lb : ℝ × ℝ) (x w : List ℝ) (s : InvBat) : Option ℝ :=
  if ¬ (0 ≤ s.xi ∧ s.xi ≤ 2 * π) then none
  else if ¬ (kb.1 ≤ s.kappa ∧ s.kappa ≤ kb.2) then none
  else if ¬ (nb.1 ≤ s.nu ∧ s.nu ≤ nb.2) then none
  else if ¬ (lb.1 ≤ s.lmbd ∧ s.lmbd ≤ lb.2) then none
  else if s.kappa ≤ invbatTol then some (-(w.map fun wi => wi * -log (2 * π)).sum)
  else
    let kappa := clip s.kappa 0 invbatUpper
    let N := invbatGridSize kappa s.nu s.lmbd
    let dens := fun y => pchip N (tabGrid N) (tab kappa s.nu s.lmbd) (tabRel y (pymod s.xi (2 * π)))
    if ∃ y ∈ x, dens y ≤ 0 then none
    else some (-(List.zipWith (fun y wi => wi * log (dens y)) x w).sum)

/-- `np.unique(np.concatenate(([0.0], grid)))`. -/
noncomputable def uniqueWithZero (grid : List ℝ) : List ℝ :=
  ((0 :: grid).mergeSort (fun a b => decide (a ≤ b))).dedup

open Classical in
/-- The starting values of `nu` and `lmbd`: distributions.py 7149-7158. -/
noncomputable def invbatShapeInit (nll : InvBat → Option ℝ) (nuGrid lmbdGrid : List ℝ) (xi kappa : ℝ) : ℝ × ℝ :=
  (((uniqueWithZero nuGrid).flatMap fun n => (uniqueWithZero lmbdGrid).map fun l => (n, l)).foldl
    (fun (acc : (ℝ × ℝ) × Option ℝ) cand =>
      let score := nll ⟨xi, kappa, cand.1, cand.2⟩
      if infLt score acc.2 then (cand, score) else acc) ((0, 0), nll ⟨xi, kappa, 0, 0⟩)).1

/-- `np.linspace(b[0], b[1], 5)`: distributions.py 7114, 7119. -/
noncomputable def invbatGrid (b : ℝ × ℝ) : List ℝ := (List.range 5).map fun i : ℕ => b.1 + i * ((b.2 - b.1) / 4)

/-- `fit(data, weights, method, optimizer, nu_grid, lmbd_grid, kappa_bounds, nu_bounds, lmbd_bounds)`: distributions.py
7065-7203. `lower` stands for `str.lower`, `rnd` for Python's `round`, `minimize` for scipy's optimiser, given the method's
name, the objective and the start, `tab` for the tables of the object. -/
noncomputable def invbatFit (tab : ℝ → ℝ → ℝ → ℕ → ℝ) (minimize : String → (InvBat → Option ℝ) → InvBat → MinResult 4)
    (lower : String → String) (rnd : ℝ → ℤ) (data : List ℝ) (weights : Option (List ℝ)) (method optimizer : String)
    (nuGrid lmbdGrid : Option (List ℝ)) (kb nb lb : ℝ × ℝ) : Except PyErr InvBat := do
  let x := data.map wrap2pi
  if x.length = 0 then .error .valueError
  else
    let w ← fitWeights x.length weights
    let xiMom := (fitStart x w).1
    let r1 := clip (fitStart x w).2 (1 / 10 ^ 12) (1 - 1 / 10 ^ 12)
    let nAdjust := (max 1 (rnd w.sum)).toNat
    let kappaMom := clip (circKappa r1 (some nAdjust)) kb.1 kb.2
    let nll := invbatNll tab kb nb lb x w
    if method = "moments" then .ok ⟨xiMom, kappaMom, 0, 0⟩
    else if lower method ≠ "mle" then .error .valueError
    else
      let shape := invbatShapeInit nll (nuGrid.getD (invbatGrid nb)) (lmbdGrid.getD (invbatGrid lb)) xiMom kappaMom
      let start : InvBat := ⟨xiMom, kappaMom, shape.1, shape.2⟩
      let result := minimize optimizer nll start
      let result' := if result.success = false ∧ optimizer ≠ "Powell" then
          (let fb := minimize "Powell" nll start
           if fb.success then fb else result)
        else result
      if result'.success = false then .error .runtimeError
      else .ok ⟨wrapDirection (result'.x 0), clip (result'.x 1) kb.1 kb.2, clip (result'.x 2) nb.1 nb.2,
        clip (result'.x 3) lb.1 lb.2⟩

end Verif
