import Verif.Model.DistJPAsym

/-! # Model of the sampler of the Jones-Pewsey distribution: `pycircstat2/distributions.py` lines 4975-5070

`mu` has been reduced modulo a turn (4979). The samples of `vonmises.rvs` are parameters: `vm` for the limit of small
`psi`, the first components of `trials` for the proposals. The cache of envelopes (5050-5052, 5069) has all
parameters as its key and is a recomputation here. -/

set_option autoImplicit false

namespace Verif

open Real

/-- `_jp_sampler_envelope(mu, kappa, psi)`: distributions.py 5048-5070. -/
noncomputable def jpEnvelope (E : JPEnv) (s : JP) : ℝ × ℝ :=
  let theta := fun j => pymod (s.mu + jpaGrid 2048 j) (2 * π)
  let logTarget := fun j => log (max ((distPdf (jonespewsey E) (theta j) s).getD 0) floatTiny)
  envOptimize (envLogMax 2048 ⟨0, by simp⟩ theta logTarget s.mu)
    (max (jpEffectiveKappa s.kappa s.psi) (1 / 10 ^ 6))

open Classical in
/-- One trial with the given proposal and the uniform draw `u`: distributions.py 5008-5022; `vpdf` is the density method of the
von Mises distribution of the proposals. `none` when the proposal is rejected. -/
noncomputable def jpTrial (E : JPEnv) (vpdf : ℝ → ℝ) (s : JP) (proposal u : ℝ) : Option ℝ :=
  let target := (distPdf (jonespewsey E) proposal s).getD 0
  let ratio := if 0 < vpdf proposal then target / ((jpEnvelope E s).2 * vpdf proposal) else 0
  if u ≤ ratio then some proposal else none

/-- `_rvs` for one sample: distributions.py 4975-5024: a uniform angle, a von Mises sample, or the first accepted of the given
trials (`none` when none of them is accepted). -/
noncomputable def jpRvs (E : JPEnv) (vpdf : ℝ → ℝ) (s : JP) (u0 : ℝ) (vm : ℝ → ℝ → ℝ) (trials : List (ℝ × ℝ)) : Option ℝ :=
  if s.kappa < jpKappaTol then some (2 * π * u0)
  else if |s.psi| < jpPsiTol then some (vm s.mu s.kappa)
  else trials.findSome? fun t => jpTrial E vpdf s t.1 t.2

end Verif
