import Verif.Model.DistSimple
import Verif.Model.DistVonMises
import Mathlib.Data.EReal.Basic

/-! # Model of the methods of a distribution that are derived from the others

`logcdf`, `logsf`, `nnlf` of `CircularContinuous` (distributions.py 416-429), and `isf` and `interval`, which the class
takes over from scipy unchanged. As in `Model/Distn.lean` scipy's part is reproduced from its documentation. -/

set_option autoImplicit false

namespace Verif

open Real

open Classical in
/-- `numpy.log` of a number that is not negative: `-inf` (`⊥`) at 0. -/
noncomputable def npLog (v : ℝ) : EReal := if v = 0 then ⊥ else ((log v : ℝ) : EReal)

open Classical in
/-- `logcdf(x, *shapes)`: distributions.py 416-418, then `rv_continuous.logcdf`: `-inf` below the support, 0 at and above
its upper end, `log(_cdf)` inside. `none` is `nan`. -/
noncomputable def distLogcdf {σ : Type} (D : Family σ) (x : ℝ) (s : σ) : Option EReal :=
  if ¬ D.argcheck s then none
  else if 2 * π ≤ wrap2pi x then some 0
  else if 0 < wrap2pi x then some (npLog (D.cdf (wrap2pi x) s))
  else some ⊥

open Classical in
/-- `logsf(x, *shapes)`: distributions.py 424-426, then `rv_continuous.logsf` with the default `_logsf`. -/
noncomputable def distLogsf {σ : Type} (D : Family σ) (x : ℝ) (s : σ) : Option EReal :=
  if ¬ D.argcheck s then none
  else if wrap2pi x ≤ 0 then some 0
  else if wrap2pi x < 2 * π then some (npLog (1 - D.cdf (wrap2pi x) s))
  else some ⊥

open Classical in
/-- `isf(q, *shapes)`: `rv_continuous.isf` with the default `_isf(q) = _ppf(1 - q)`. -/
noncomputable def distIsf {σ : Type} (D : Family σ) (q : ℝ) (s : σ) : Option ℝ :=
  if ¬ D.argcheck s then none
  else if q = 0 then some (2 * π)
  else if q = 1 then some 0
  else if 0 < q ∧ q < 1 then some (D.ppf (1 - q) s)
  else none

/-- `interval(confidence, *shapes)`: `rv_continuous.interval`. -/
noncomputable def distInterval {σ : Type} (D : Family σ) (conf : ℝ) (s : σ) : Except PyErr (Option ℝ × Option ℝ) :=
  if conf < 0 ∨ 1 < conf then .error .valueError
  else .ok (distPpf D ((1 - conf) / 2) s, distPpf D ((1 + conf) / 2) s)

open Classical in
/-- `nnlf(theta, x)` of a family with `n` shapes and without a `_nnlf` of its own: distributions.py 428-429, then
`rv_generic.nnlf`: `theta` is the shapes, `loc`, `scale`; the wrapped angles are moved by `loc` and divided by `scale`
and are not wrapped again. `none` is `inf`. -/
noncomputable def distNnlf (D : Family (List ℝ)) (n : ℕ) (theta xs : List ℝ) : Except PyErr (Option ℝ) :=
  if theta.length < 2 then .error .valueError
  else if theta.length ≠ n + 2 then .error .typeError
  else
    let shapes := theta.take n
    let loc := theta.getD n 0
    let scale := theta.getD (n + 1) 1
    if ¬ D.argcheck shapes ∨ scale ≤ 0 then .ok none
    else
      let ys := xs.map fun x => (wrap2pi x - loc) / scale
      if ∃ y ∈ ys, ¬ (0 ≤ y ∧ y ≤ 2 * π) then .ok none
      else if ∃ y ∈ ys, D.pdf y shapes ≤ 0 then .ok none
      else .ok (some (-(ys.map fun y => log (D.pdf y shapes)).sum + xs.length * log scale))

open Classical in
/-- `vonmises.nnlf(theta, x)`: the same with the `_nnlf(theta, data)` of distributions.py 3753-3766, which takes two
arguments where scipy passes three (`data, mu, kappa`). -/
noncomputable def vmNnlf (theta xs : List ℝ) : Except PyErr (Option ℝ) :=
  if theta.length < 2 then .error .valueError
  else match theta with
    | [mu, kappa, loc, scale] =>
      if ¬ ((0 ≤ mu ∧ mu ≤ 2 * π) ∧ 0 < kappa) ∨ scale ≤ 0 then .ok none
      else if ∃ y ∈ xs.map fun x => (wrap2pi x - loc) / scale, ¬ (0 ≤ y ∧ y ≤ 2 * π) then .ok none
      else .error .typeError
    | _ => .error .typeError

end Verif
