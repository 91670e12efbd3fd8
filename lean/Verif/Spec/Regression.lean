import Verif.Model.Bessel
import Mathlib.Analysis.Calculus.Deriv.Basic
import Mathlib.Analysis.SpecialFunctions.Log.Basic
import Mathlib.LinearAlgebra.Matrix.Defs

/-! # Specification: Fisher information -/

namespace Verif.Spec

open Real

set_option autoImplicit false

/-- The von Mises density with mean direction `m` and concentration `k`. -/
noncomputable def vonMises (m k t : ℝ) : ℝ := exp (k * cos (t - m)) / (2 * π * besselI 0 k)

/-- The Fisher information of `n` independent angles, the `i`th with density `dens eta i`, about the parameters
`eta`: the expected products of the derivatives of the log-density. -/
noncomputable def fisherInfo {ι : Type} [DecidableEq ι] {n : ℕ} (dens : (ι → ℝ) → Fin n → ℝ → ℝ) (eta : ι → ℝ) :
    Matrix ι ι ℝ := fun a b =>
  ∑ i, ∫ t in (0 : ℝ)..(2 * π), deriv (fun s => log (dens (Function.update eta a s) i t)) (eta a)
    * deriv (fun s => log (dens (Function.update eta b s) i t)) (eta b) * dens eta i t

end Verif.Spec
