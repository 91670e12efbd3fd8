import Verif.Model.DistKatoJones
import Verif.Model.DistSimple
import Verif.Model.DistJonesPewsey
import Mathlib.Analysis.SpecialFunctions.Trigonometric.Arctan

/-! # Model of the wrapped stable distribution: `pycircstat2/distributions.py` lines 7473-8078

The parameters are scalars (`_scalar_param`, 8029-8039, refuses others). The series coefficients are cached per
parameter set with the exact parameters as key (364-381, 7966-7977), so the cache does not change results and is left
out. -/

set_option autoImplicit false

namespace Verif

open Real

/-- Shape parameters of `wrapstable`. -/
structure WS where
  delta : ℝ
  alpha : ℝ
  beta : ℝ
  gamma : ℝ

/-- `_validate_params`: distributions.py 7532-7542. -/
def wsArgcheck (s : WS) : Prop :=
  (0 ≤ s.delta ∧ s.delta ≤ 2 * π) ∧ (0 < s.alpha ∧ s.alpha ≤ 2) ∧ (-1 < s.beta ∧ s.beta < 1) ∧ 0 < s.gamma

/-! ## The series -/

open Classical in
/-- `_initial_order(1e-12)` for accepted parameters: distributions.py 7983-8002. -/
noncomputable def wsInitial (s : WS) : ℕ :=
  let exponent := log (-log (1 / 10 ^ 12)) / s.alpha - log s.gamma
  if log 20000 < exponent then 20000 else min 20000 ⌈max 1 (exp exponent)⌉₊

/-- `rho_p`: distributions.py 8009, 8017. -/
noncomputable def wsRho (s : WS) (p : ℝ) : ℝ := exp (-((s.gamma * p) ^ s.alpha))

open Classical in
/-- The loop that raises the order, with the number of rounds left: distributions.py 8008-8014. -/
noncomputable def wsGrow (s : WS) : ℕ → ℕ → ℕ
  | 0, P => P
  | n + 1, P =>
    if wsRho s P ≤ 1 / 10 ^ 12 ∧ wsRho s P / P ≤ 1 / 10 ^ 12 then P
    else if 20000 ≤ P + 1 then P + 1 else wsGrow s n (P + 1)

/-- The number of terms `P`: distributions.py 8004-8014. -/
noncomputable def wsOrder (s : WS) : ℕ := wsGrow s 20000 (max 1 (max (wsInitial s) (wsInitial s)))

open Classical in
/-- `mu_p`: distributions.py 8019-8024. -/
noncomputable def wsMu (s : WS) (p : ℝ) : ℝ :=
  if |s.alpha - 1| ≤ 1 / 10 ^ 10 then s.delta * p + 2 / π * s.beta * s.gamma * p * log (s.gamma * p)
  else s.delta * p + s.beta * tan (1 / 2 * π * s.alpha) * ((s.gamma * p) ^ s.alpha - s.gamma * p)

/-- `_pdf`: distributions.py 7550-7558. -/
noncomputable def wsPdf (x : ℝ) (s : WS) : ℝ :=
  1 / (2 * π) * (1 + 2 * ∑ i ∈ Finset.range (wsOrder s), wsRho s (i + 1) * cos ((i + 1) * x - wsMu s (i + 1)))

/-- The series part of `_cdf` with its anchor: distributions.py 7607-7617. -/
noncomputable def wsSeries (x : ℝ) (s : WS) : ℝ :=
  (x / (2 * π) + 1 / π * ∑ i ∈ Finset.range (wsOrder s),
      wsRho s (i + 1) / (i + 1) * sin ((i + 1) * x - wsMu s (i + 1)))
    - 1 / π * ∑ i ∈ Finset.range (wsOrder s), wsRho s (i + 1) / (i + 1) * sin (-wsMu s (i + 1))

open Classical in
/-- `_cdf`: distributions.py 7602-7628. -/
noncomputable def wsCdf (x : ℝ) (s : WS) : ℝ :=
  if isclose x (2 * π) rtolDefault (1 / 10 ^ 12) then 1
  else if isclose x 0 rtolDefault (1 / 10 ^ 12) then 0
  else clip (if wsSeries x s < 0 then wsSeries x s + 1 else wsSeries x s) 0 1

open Classical in
/-- `_ppf` for one probability in `(0, 1)`: distributions.py 7630-7708. The loop (7660-7701) is the one of
`katojones._ppf`, modelled by `kjNewton`. -/
noncomputable def wsPpf (q : ℝ) (s : WS) : ℝ :=
  if isclose q 0 0 (1 / 10 ^ 12) then 0
  else if isclose q 1 0 (1 / 10 ^ 12) then 2 * π
  else pymod (kjNewton (fun t => wsCdf t s) (fun t => wsPdf t s) q 60 ⟨q * (2 * π), 0, 2 * π⟩ + 2 * π) (2 * π)

/-- `wrapstable`: distributions.py 7473-8042. -/
noncomputable def wrapstable : Family WS where
  argcheck := wsArgcheck
  pdf := wsPdf
  cdf := wsCdf
  ppf := wsPpf

/-! ## Sampling -/

open Classical in
/-- `_wrapstable_sample_linear` for one draw: `V` uniform on `(-π/2, π/2)`, `W` standard exponential:
distributions.py 8045-8078. -/
noncomputable def wsLinear (V W : ℝ) (s : WS) : ℝ :=
  if 1 / 10 ^ 10 < |s.alpha - 1| then
    let tanTerm := tan (1 / 2 * π * s.alpha)
    let theta0 := arctan (s.beta * tanTerm) / s.alpha
    let factor := (1 + (s.beta * tanTerm) ^ 2) ^ (1 / (2 * s.alpha))
    let deltaS1 := s.delta - s.gamma * s.beta * tanTerm
    let part1 := sin (s.alpha * (V + theta0)) / cos V ^ (1 / s.alpha)
    let part2 := (cos (V - s.alpha * (V + theta0)) / W) ^ ((1 - s.alpha) / s.alpha)
    let xS1 := s.gamma * factor * part1 * part2 + deltaS1
    xS1 + (s.delta - deltaS1)
  else
    let factor := 2 / π
    let deltaS1 := s.delta - factor * s.beta * s.gamma * log s.gamma
    let term := (1 / 2 * π + s.beta * V) * tan V
      - s.beta * log ((1 / 2 * π * W * cos V) / (1 / 2 * π + s.beta * V))
    let xS1 := s.gamma * factor * term + deltaS1
    xS1 + (s.delta - deltaS1)

open Classical in
/-- `_rvs` for one draw: distributions.py 7710-7753. -/
noncomputable def wsRvs (V W : ℝ) (s : WS) : Except PyErr ℝ :=
  if ¬ (0 < s.alpha ∧ s.alpha ≤ 2) then .error .valueError
  else if ¬ (-1 < s.beta ∧ s.beta < 1) then .error .valueError
  else if ¬ 0 < s.gamma then .error .valueError
  else .ok (pymod (wsLinear V W s) (2 * π))

/-! ## Estimation -/

/-- The keyword arguments `alpha_bounds`, `beta_bounds`, `gamma_bounds` of `fit`. -/
structure WSBounds where
  alpha : ℝ × ℝ
  beta : ℝ × ℝ
  gamma : ℝ × ℝ

/-- The defaults: distributions.py 7772-7774. -/
noncomputable def wsDefaultBounds : WSBounds :=
  ⟨(1 / 10 ^ 3, 2), (-99 / 100, 99 / 100), (1 / 10 ^ 6, 10)⟩

/-- `weighted_moment(p)`: distributions.py 7803-7804. -/
noncomputable def wsMoment (x w : List ℝ) (p : ℝ) : ℂ :=
  ⟨(List.zipWith (fun xi wi => wi * cos (p * xi)) x w).sum / w.sum,
    (List.zipWith (fun xi wi => wi * sin (p * xi)) x w).sum / w.sum⟩

/-- `alpha_mom`, `gamma_mom` from the lengths of the first two moments: distributions.py 7809-7821. -/
noncomputable def wsScale (b : WSBounds) (R1 R2 : ℝ) : ℝ × ℝ :=
  let r1 := clip R1 (1 / 10 ^ 9) (1 - 1 / 10 ^ 9)
  let r2 := clip R2 (1 / 10 ^ 9) (1 - 1 / 10 ^ 9)
  if 1 - 1 / 10 ^ 6 ≤ r1 ∨ 1 - 1 / 10 ^ 6 ≤ r2 then (1, 1 / 10 ^ 3)
  else
    let y1 := log (-log r1)
    let y2 := log (-log r2)
    let alpha := clip ((y2 - y1) / log 2) b.alpha.1 b.alpha.2
    (alpha, clip (exp (y1 / alpha)) b.gamma.1 b.gamma.2)

/-- `phi2`: distributions.py 7823-7825; `round` of Python rounds halves to even, here to the larger neighbour. -/
noncomputable def wsUnwrap (phi1 phi2 : ℝ) : ℝ :=
  phi2 + 2 * π * round ((2 * phi1 - phi2) / (2 * π))

open Classical in
/-- `beta_mom`, `delta_mom` (not yet reduced): distributions.py 7827-7851. -/
noncomputable def wsSkew (b : WSBounds) (alpha gamma phi1 phi2 : ℝ) : ℝ × ℝ :=
  if |alpha - 1| ≤ 1 / 10 ^ 10 then
    let B1 := 2 / π * gamma * log gamma
    let B2 := 2 / π * (gamma * 2) * log (gamma * 2)
    let denom := B2 - 2 * B1
    if |denom| < 1 / 10 ^ 8 then (0, phi1)
    else
      let beta := clip ((phi2 - 2 * phi1) / denom) b.beta.1 b.beta.2
      (beta, phi1 - beta * B1)
  else
    let A := tan (1 / 2 * π * alpha)
    let B1 := gamma ^ alpha - gamma
    let B2 := (gamma * 2) ^ alpha - gamma * 2
    let denom := A * (B2 - 2 * B1)
    if |denom| < 1 / 10 ^ 8 then (0, phi1)
    else
      let beta := clip ((phi2 - 2 * phi1) / denom) b.beta.1 b.beta.2
      (beta, phi1 - beta * A * B1)

/-- The moment estimates: distributions.py 7806-7853. -/
noncomputable def wsMomentEst (b : WSBounds) (x w : List ℝ) : WS :=
  let m1 := wsMoment x w 1
  let m2 := wsMoment x w 2
  let ag := wsScale b ‖m1‖ ‖m2‖
  let phi1 := Complex.arg m1
  let phi2 := wsUnwrap phi1 (Complex.arg m2)
  let bd := wsSkew b ag.1 ag.2 phi1 phi2
  ⟨pymod bd.2 (2 * π), ag.1, bd.1, ag.2⟩

open Classical in
/-- `nll`: distributions.py 7868-7882; `none` stands for `inf`. -/
noncomputable def wsNll (b : WSBounds) (x w : List ℝ) (s : WS) : Option ℝ :=
  if ¬ (0 ≤ s.delta ∧ s.delta ≤ 2 * π) then none
  else if ¬ (b.alpha.1 ≤ s.alpha ∧ s.alpha ≤ b.alpha.2) then none
  else if ¬ (b.beta.1 ≤ s.beta ∧ s.beta ≤ b.beta.2) then none
  else if ¬ (b.gamma.1 ≤ s.gamma ∧ s.gamma ≤ b.gamma.2) then none
  else if ∃ xi ∈ x, wsPdf xi s ≤ 0 then none
  else some (-(List.zipWith (fun xi wi => wi * log (wsPdf xi s)) x w).sum)

/-- The candidates of the starting grid: distributions.py 7884-7897. -/
noncomputable def wsCandidates (b : WSBounds) (m : WS) (phi1 phi2 : ℝ) : List WS :=
  let ds := [pymod m.delta (2 * π), pymod phi1 (2 * π), pymod (phi2 / 2) (2 * π)]
  let as := [m.alpha, 1, min (19 / 10) (m.alpha * (12 / 10))].map fun v => clip v b.alpha.1 b.alpha.2
  let bs := [m.beta, 0, SignType.sign m.beta * (1 / 2)].map fun v => clip v b.beta.1 b.beta.2
  let gs := [m.gamma, max b.gamma.1 (m.gamma * (8 / 10)), min b.gamma.2 (m.gamma * (12 / 10))].map fun v =>
    clip v b.gamma.1 b.gamma.2
  ds.flatMap fun d => as.flatMap fun a => bs.flatMap fun be => gs.map fun g => ⟨d, a, be, g⟩

open Classical in
/-- The best candidate, starting from the moment estimates: distributions.py 7899-7909. -/
noncomputable def wsStart (nll : WS → Option ℝ) (m : WS) (cands : List WS) : WS :=
  (cands.foldl (fun (acc : WS × Option ℝ) c => if infLt (nll c) acc.2 then (c, nll c) else acc) (m, nll m)).1

/-- `wrapstable.fit(data, weights, method, optimizer, …_bounds)`: distributions.py 7764-7964. `minimize` is scipy's
optimiser for the method named first, given objective and start. -/
noncomputable def wsFit (minimize : String → (WS → Option ℝ) → WS → MinResult 4) (b : WSBounds)
    (data : List ℝ) (weights : Option (List ℝ)) (method optimizer : String) : Except PyErr WS := do
  let x := data.map wrap2pi
  if x.length = 0 then .error .valueError
  else
    let w ← fitWeights x.length weights
    let m := wsMomentEst b x w
    if method = "moments" then .ok m
    else if method.toLower ≠ "mle" then .error .valueError
    else
      let phi1 := Complex.arg (wsMoment x w 1)
      let phi2 := wsUnwrap phi1 (Complex.arg (wsMoment x w 2))
      let nll := wsNll b x w
      let init := wsStart nll m (wsCandidates b m phi1 phi2)
      let result := minimize optimizer nll init
      let result' := if result.success = false ∧ optimizer ≠ "Powell" then
          (let fb := minimize "Powell" nll init
           if fb.success then fb else result)
        else result
      if result'.success = false then .error .runtimeError
      else .ok ⟨pymod (result'.x 0) (2 * π), clip (result'.x 1) b.alpha.1 b.alpha.2,
        clip (result'.x 2) b.beta.1 b.beta.2, clip (result'.x 3) b.gamma.1 b.gamma.2⟩

end Verif
