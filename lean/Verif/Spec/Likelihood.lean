import Mathlib.Analysis.SpecialFunctions.Log.Basic

/-! # Specification vocabulary for maximum likelihood estimation -/

set_option autoImplicit false

namespace Verif.Spec

/-- The weighted log-likelihood of observations `x` with weights `w` under the density `pdf`. -/
noncomputable def logLik (pdf : ℝ → Option ℝ) (x w : List ℝ) : ℝ :=
  (List.zipWith (fun xi wi => wi * Real.log ((pdf xi).getD 0)) x w).sum

/-- Every observation has a positive density. -/
def PositiveOn (pdf : ℝ → Option ℝ) (x : List ℝ) : Prop := ∀ xi ∈ x, ∃ v, pdf xi = some v ∧ 0 < v

/-- Among the parameters `S` under which every observation has a positive density, `s` has the largest
likelihood. -/
def MaximisesLikelihood {σ : Type} (pdf : ℝ → σ → Option ℝ) (S : Set σ) (x w : List ℝ) (s : σ) : Prop :=
  s ∈ S ∧ PositiveOn (fun y => pdf y s) x ∧
    ∀ t ∈ S, PositiveOn (fun y => pdf y t) x → logLik (fun y => pdf y t) x w ≤ logLik (fun y => pdf y s) x w

/-- `p` minimises the objective; `none` stands for an infinite value. -/
def IsMinimum {σ : Type} (obj : σ → Option ℝ) (p : σ) : Prop :=
  ∃ v, obj p = some v ∧ ∀ t u, obj t = some u → v ≤ u

/-- `p` is not worse than `start` for the objective, if the latter has a value there. -/
def NotWorse {σ : Type} (obj : σ → Option ℝ) (start p : σ) : Prop :=
  ∀ u, obj start = some u → ∃ v, obj p = some v ∧ v ≤ u

end Verif.Spec
