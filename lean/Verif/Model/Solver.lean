import Verif.Model.Distn

/-! # Model of the safeguarded Newton/bisection quantile solvers of `pycircstat2/distributions.py`

The same code appears in `vonmises._ppf` (3531-3579), `jonespewsey._ppf` (4881-4941),
`jonespewsey_sineskewed._ppf` (5662-5722), `jonespewsey_asym._ppf` (6150-6210), and with small
differences in `wrapnorm._ppf` (2498-2551). Arrays of probabilities are lists; the Newton loop stops
for all entries at once. -/

set_option autoImplicit false

namespace Verif

open Real

/-- The entry for one probability `q`: current angle and bracket. -/
structure Br where
  q : ℝ
  theta : ℝ
  L : ℝ
  H : ℝ

open Classical in
/-- Bracket update: distributions.py 3542-3545. `F` is the cdf as the code evaluates it. -/
noncomputable def Br.update (F : ℝ → ℝ) (s : Br) : Br :=
  let delta := F s.theta - s.q
  { s with L := if delta ≤ 0 then s.theta else s.L, H := if 0 < delta then s.theta else s.H }

/-- The convergence test of one entry: distributions.py 3547. -/
def Br.done (F : ℝ → ℝ) (s : Br) : Prop := |F s.theta - s.q| ≤ 1 / 10 ^ 12 ∧ s.H - s.L ≤ 1 / 10 ^ 10

open Classical in
/-- The Newton step with its safeguard: distributions.py 3551-3557; `f` is the density used, `post`
the final reduction into the support (`np.mod` at 3556, `np.clip` at 4913). -/
noncomputable def Br.move (F f post : ℝ → ℝ) (s : Br) : Br :=
  let step := clip ((F s.theta - s.q) / max (f s.theta) (1 / 10 ^ 15)) (-π) π
  let next := s.theta - step
  { s with theta := post (if next ≤ s.L ∨ s.H ≤ next then 1 / 2 * (s.L + s.H) else next) }

open Classical in
/-- The Newton loop: distributions.py 3539-3557 (6 rounds), 4888-4913 (8 rounds). -/
noncomputable def brNewton (F f post : ℝ → ℝ) : ℕ → List Br → List Br
  | 0, st => st
  | k + 1, st =>
    let st1 := st.map (Br.update F)
    if ∀ s ∈ st1, s.done F then st1 else brNewton F f post k (st1.map (Br.move F f post))

open Classical in
/-- The bisection of an entry that has not converged: distributions.py 3565-3577 (30 rounds). -/
noncomputable def brBisect (F : ℝ → ℝ) (q : ℝ) : ℕ → ℝ → ℝ → ℝ
  | 0, L, H => 1 / 2 * (L + H)
  | k + 1, L, H =>
    let mid := 1 / 2 * (L + H)
    let delta := F mid - q
    if ¬ 1 / 10 ^ 12 < |delta| then mid
    else if 0 < delta then brBisect F q k L mid else brBisect F q k mid H

open Classical in
/-- The solver: distributions.py 3531-3577. Each entry of the input is a probability with its starting
angle. -/
noncomputable def brSolve (F f post : ℝ → ℝ) (newton bisect : ℕ) (init : List (ℝ × ℝ)) : List ℝ :=
  (brNewton F f post newton (init.map fun p => ⟨p.1, p.2, 0, 2 * π⟩)).map fun s =>
    if 1 / 10 ^ 12 < |F s.theta - s.q| ∨ 1 / 10 ^ 10 < s.H - s.L
    then brBisect F s.q bisect s.L s.H else s.theta

/-! ## The variant of `wrapnorm._ppf` -/

open Classical in
/-- The Newton loop of `wrapnorm._ppf`: distributions.py 2503-2526 (6 rounds, bracket updated once
more at the end). -/
noncomputable def wnNewton (F f post : ℝ → ℝ) : ℕ → List Br → List Br
  | 0, st => st.map (Br.update F)
  | k + 1, st =>
    let st1 := st.map (Br.update F)
    if ∀ s ∈ st1, |F s.theta - s.q| ≤ 1 / 10 ^ 12 then st1.map (Br.update F)
    else wnNewton F f post k (st1.map (Br.move F f post))

open Classical in
/-- The solver of `wrapnorm._ppf`: distributions.py 2498-2545. -/
noncomputable def wnSolve (F f post : ℝ → ℝ) (newton bisect : ℕ) (init : List (ℝ × ℝ)) : List ℝ :=
  (wnNewton F f post newton (init.map fun p => ⟨p.1, p.2, 0, 2 * π⟩)).map fun s =>
    if 1 / 10 ^ 12 < |F s.theta - s.q| then brBisect F s.q bisect s.L s.H else s.theta

end Verif
