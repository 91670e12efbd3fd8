import Verif.Model.Pchip
import Verif.Model.Distn
import Mathlib.Analysis.SpecialFunctions.Log.Base

/-! # Model of the tabulated distribution functions of `pycircstat2/distributions.py`

The flat-topped von Mises and the inverse Batschelet distribution tabulate their density on an equally
spaced grid over `[-π, π]`, sum it with the trapezoid rule and interpolate the running sums
(4603-4649, 7245-7311). Both read the cdf (4042-4048, 6670-6677) and the quantiles (4096-4151,
6759-6812) from the table with the same code. A table with `N` pieces is given by the tabulated density
values `f 0, …, f N`. -/

set_option autoImplicit false

namespace Verif

open Real

/-- `np.linspace(-π, π, N + 1)`: distributions.py 4607, 7246. -/
noncomputable def tabGrid (N j : ℕ) : ℝ := -π + j * (2 * π / N)

/-- The running trapezoid sums: distributions.py 4624-4625, 7287-7288. -/
noncomputable def tabTrap (N : ℕ) (f : ℕ → ℝ) (k : ℕ) : ℝ :=
  (∑ j ∈ Finset.range k, 1 / 2 * (f j + f (j + 1))) * (2 * π / N)

/-- `np.maximum.accumulate`. -/
noncomputable def runMax (c : ℕ → ℝ) : ℕ → ℝ
  | 0 => c 0
  | k + 1 => max (runMax c k) (c (k + 1))

/-- The tabulated distribution function: distributions.py 4626-4628, 7289-7290. -/
noncomputable def tabCumul (N : ℕ) (f : ℕ → ℝ) (k : ℕ) : ℝ :=
  if k = N then 1 else runMax (fun i => clip (tabTrap N f i) 0 1) k

/-- `cdf_interp`: distributions.py 4630, 7292. -/
noncomputable def tabH (N : ℕ) (f : ℕ → ℝ) (phi : ℝ) : ℝ := pchip N (tabGrid N) (tabCumul N f) phi

/-- The angle relative to the location, in `[-π, π)`: distributions.py 4043, 6671; with `x = 0` it is the
relative angle of the origin (4044, 6672). -/
noncomputable def tabRel (x mu : ℝ) : ℝ := pymod (x - mu + π) (2 * π) - π

open Classical in
/-- The cdf read from the table at an angle of `[0, 2π]`: distributions.py 4042-4054, 6670-6682. -/
noncomputable def tabCdf (N : ℕ) (f : ℕ → ℝ) (mu x : ℝ) : ℝ :=
  let H := tabH N f (tabRel x mu)
  let Hs := tabH N f (tabRel 0 mu)
  if isclose x (2 * π) 0 (1 / 10 ^ 12) then 1
  else clip (if H < Hs then H - Hs + 1 else H - Hs) 0 1

/-! ## Quantiles -/

open Classical in
/-- `np.searchsorted(cdf_grid, target, side="right")`: the number of entries not above the target. -/
noncomputable def tabCount (N : ℕ) (c : ℕ → ℝ) (target : ℝ) : ℕ :=
  ((Finset.range (N + 1)).filter fun j => c j ≤ target).card

open Classical in
/-- The search loop: distributions.py 4127-4147, 6790-6808. `H` is the interpolated distribution function,
`f` the density used for the Newton step. -/
noncomputable def tabNewton (H f : ℝ → ℝ) (target : ℝ) : ℕ → ℝ → ℝ → ℝ → ℝ
  | 0, phi, _, _ => phi
  | k + 1, phi, lo, hi =>
    let residual := H phi - target
    if |residual| ≤ 1 / 10 ^ 12 ∧ hi - lo ≤ 1 / 10 ^ 10 then phi
    else
      let hi' := if 0 < residual then min hi phi else hi
      let lo' := if 0 < residual then lo else max lo phi
      let cand := phi - residual / max (f phi) floatTiny
      let cand' := if cand ≤ lo' ∨ hi' ≤ cand then 1 / 2 * (lo' + hi') else cand
      tabNewton H f target k (clip cand' lo' hi') lo' hi'

/-- The angle relative to the location for the probability `q`: distributions.py 4102-4147, 6766-6808.
`guess` is the starting angle read from the interpolated inverse table. -/
noncomputable def tabSolve (N : ℕ) (f : ℕ → ℝ) (g : ℝ → ℝ) (guess : ℝ → ℝ) (rounds : ℕ) (mu q : ℝ) : ℝ :=
  let target := pymod (tabH N f (tabRel 0 mu) + q) 1
  let i := min (max (tabCount N (tabCumul N f) target) 1) N
  let lo := tabGrid N (i - 1)
  let hi := tabGrid N i
  tabNewton (tabH N f) g target rounds (clip (guess target) lo hi) lo hi

open Classical in
/-- The quantile of a probability of `[0, 1]`: distributions.py 4085-4149, 6748-6810. -/
noncomputable def tabPpf (N : ℕ) (f : ℕ → ℝ) (g : ℝ → ℝ) (guess : ℝ → ℝ) (rounds : ℕ) (mu q : ℝ) : ℝ :=
  if isclose q 0 0 (1 / 10 ^ 12) then 0
  else if isclose q 1 0 (1 / 10 ^ 12) then 2 * π
  else pymod (mu + tabSolve N f g guess rounds mu q) (2 * π)

/-- The grid size for a given sharpness: distributions.py 4593-4600, 7463-7470. -/
noncomputable def tabSize (sharpness : ℝ) : ℕ :=
  let target := clip (64 + 12 * sharpness) 512 8192
  let size := min (max (2 ^ ⌈logb 2 target⌉₊) 512) 8192
  if size % 2 ≠ 0 then size + 1 else size

end Verif
