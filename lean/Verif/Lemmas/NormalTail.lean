import Mathlib.Probability.Distributions.Gaussian.Real

/-! # Two-sided tails of the standard normal distribution -/

set_option autoImplicit false

namespace Verif.Spec

open MeasureTheory ProbabilityTheory

/-- The probability that a standard normal variable is further from zero than `t` is. -/
noncomputable def normalTails (t : ℝ) : ℝ := (gaussianReal 0 1).real {x | |t| < |x|}

end Verif.Spec

namespace Verif

open MeasureTheory ProbabilityTheory Verif.Spec

lemma normal_neg (s : Set ℝ) (hs : MeasurableSet s) :
    (gaussianReal 0 1).real (Neg.neg ⁻¹' s) = (gaussianReal 0 1).real s := by
  have h := gaussianReal_map_neg (μ := 0) (v := 1)
  rw [neg_zero] at h
  conv_rhs => rw [← h]
  rw [measureReal_def, measureReal_def]
  congr 1
  exact (Measure.map_apply measurable_neg hs).symm

lemma two_sided_eq (t : ℝ) : 2 * (1 - (gaussianReal 0 1).real (Set.Iic |t|)) = normalTails t := by
  have h1 : (gaussianReal 0 1).real (Set.Ioi |t|) = 1 - (gaussianReal 0 1).real (Set.Iic |t|) := by
    rw [← Set.compl_Iic, probReal_compl_eq_one_sub measurableSet_Iic]
  have h2 : {x : ℝ | |t| < |x|} = Set.Ioi |t| ∪ Neg.neg ⁻¹' Set.Ioi |t| := by
    ext x
    simp only [Set.mem_ofPred_eq, Set.mem_union, Set.mem_Ioi, Set.mem_preimage]
    exact lt_abs
  have h3 : Disjoint (Set.Ioi |t|) (Neg.neg ⁻¹' Set.Ioi |t|) := by
    rw [Set.disjoint_left]
    intro x hx hy
    simp only [Set.mem_Ioi, Set.mem_preimage] at hx hy
    linarith [abs_nonneg t]
  unfold normalTails
  rw [h2, measureReal_union h3 (measurable_neg measurableSet_Ioi), normal_neg _ measurableSet_Ioi, h1]
  ring

lemma normalTails_zero : normalTails 0 = 1 := by
  have hna : NullSingletonClass (gaussianReal 0 1) := nullSingletonClass_gaussianReal one_ne_zero
  unfold normalTails
  have : {x : ℝ | |(0 : ℝ)| < |x|} = {0}ᶜ := by ext x; simp
  rw [this, probReal_compl_eq_one_sub (measurableSet_singleton 0), measureReal_def, measure_singleton]
  simp

lemma normalTails_lt {s t : ℝ} (h : |s| < |t|) : normalTails t < normalTails s := by
  unfold normalTails
  have hsub : {x : ℝ | |t| < |x|} ⊆ {x | |s| < |x|} := fun x hx => lt_trans h hx
  have hmeas : MeasurableSet {x : ℝ | |t| < |x|} := (isOpen_lt continuous_const continuous_abs).measurableSet
  have hd := measureReal_diff (μ := gaussianReal 0 1) hsub hmeas
  have hpos : 0 < (gaussianReal 0 1).real ({x : ℝ | |s| < |x|} \ {x | |t| < |x|}) := by
    rw [measureReal_def]
    refine ENNReal.toReal_pos ?_ (measure_ne_top _ _)
    intro h0
    have h1 := gaussianReal_absolutelyContinuous' 0 (one_ne_zero) h0
    have h2 : Set.Ioo |s| |t| ⊆ {x : ℝ | |s| < |x|} \ {x | |t| < |x|} := by
      intro x hx
      have : |x| = x := abs_of_nonneg ((abs_nonneg s).trans hx.1.le)
      simp only [Set.mem_diff, Set.mem_ofPred_eq, this, not_lt]
      exact ⟨hx.1, hx.2.le⟩
    have h3 := measure_mono_null h2 h1
    rw [Real.volume_Ioo, ENNReal.ofReal_eq_zero] at h3
    linarith
  linarith

lemma normalTails_pos (t : ℝ) : 0 < normalTails t := by
  have h : normalTails (|t| + 1) < normalTails t := normalTails_lt (by
    rw [abs_of_nonneg (show 0 ≤ |t| + 1 by positivity)]; linarith)
  exact lt_of_le_of_lt measureReal_nonneg h

lemma normalTails_le_one (t : ℝ) : normalTails t ≤ 1 := measureReal_le_one

lemma normalTails_abs (t : ℝ) : normalTails |t| = normalTails t := by
  unfold normalTails; rw [abs_abs]

/-- Chebyshev's inequality. -/
lemma normalTails_mul_sq (t : ℝ) : normalTails t * t ^ 2 ≤ 1 := by
  rcases eq_or_ne t 0 with rfl | h
  · simp
  have ht : 0 < |t| := abs_pos.2 h
  have h1 := meas_ge_le_variance_div_sq (μ := gaussianReal 0 1) (memLp_id_gaussianReal' 2 (by simp)) ht
  rw [variance_id_gaussianReal] at h1
  simp only [id_eq, integral_id_gaussianReal, sub_zero, NNReal.coe_one, sq_abs] at h1
  have h2 : normalTails t ≤ 1 / t ^ 2 := by
    unfold normalTails
    calc (gaussianReal 0 1).real {x | |t| < |x|}
        ≤ (gaussianReal 0 1).real {x | |t| ≤ |x|} := measureReal_mono (fun x (hx : |t| < |x|) => show |t| ≤ |x| from hx.le)
      _ ≤ (ENNReal.ofReal (1 / t ^ 2)).toReal := ENNReal.toReal_mono (by simp) h1
      _ = 1 / t ^ 2 := ENNReal.toReal_ofReal (by positivity)
  have : 0 < t ^ 2 := by positivity
  rwa [le_div_iff₀ this] at h2

end Verif
