import Verif.Model.Clustering

/-! # Scores of a fitted mixture -/

set_option autoImplicit false

namespace Verif

/-- `MoCD.score`: clustering.py 1219-1221, the mean of `score_samples`. The mean of no observation is `nan`. -/
noncomputable def mocdScore {Θ : Type} {K n : ℕ} (logpdf : Θ → ℝ → ℝ) (unit : String) (fullCycle : ℝ)
    (s : MixState Θ K) (X : Fin n → ℝ) : Option ℝ :=
  if n = 0 then none else some ((∑ i, mocdScoreSample logpdf unit fullCycle s (X i)) / n)

end Verif
