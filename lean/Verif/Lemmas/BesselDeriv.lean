import Verif.Lemmas.Bessel
import Mathlib.Analysis.Calculus.ParametricIntervalIntegral

/-! # The derivative of the modified Bessel function of orders zero and one -/

set_option autoImplicit false

namespace Verif

open Real MeasureTheory

theorem hasDerivAt_besselI_zero (k : ℝ) : HasDerivAt (fun k => besselI 0 k) (besselI 1 k) k := by
  have h := intervalIntegral.hasDerivAt_integral_of_dominated_loc_of_deriv_le (μ := volume)
    (a := 0) (b := π) (𝕜 := ℝ) (E := ℝ) (x₀ := k) (s := Metric.ball k 1)
    (F := fun k t => exp (k * cos t) * cos ((0 : ℕ) * t))
    (F' := fun k t => exp (k * cos t) * cos ((1 : ℕ) * t))
    (bound := fun _ => exp (|k| + 1))
    (Metric.ball_mem_nhds k one_pos)
    (Filter.Eventually.of_forall fun k =>
      ((bessel_cont 0 k).aestronglyMeasurable))
    ((bessel_cont 0 k).intervalIntegrable _ _)
    ((bessel_cont 1 k).aestronglyMeasurable)
    (Filter.Eventually.of_forall fun t _ y hy => by
      rw [norm_mul, norm_of_nonneg (exp_pos _).le]
      have h1 : ‖cos (((1 : ℕ) : ℝ) * t)‖ ≤ 1 := abs_cos_le_one _
      have h2 : y * cos t ≤ |k| + 1 := by
        have hy' : |y - k| < 1 := by simpa [Real.dist_eq] using hy
        have : |y| ≤ |k| + 1 := by
          have := abs_sub_abs_le_abs_sub y k
          linarith
        calc y * cos t ≤ |y * cos t| := le_abs_self _
          _ = |y| * |cos t| := abs_mul _ _
          _ ≤ |y| * 1 := mul_le_mul_of_nonneg_left (abs_cos_le_one t) (abs_nonneg y)
          _ ≤ _ := by linarith
      calc _ ≤ exp (y * cos t) * 1 := mul_le_mul_of_nonneg_left h1 (exp_pos _).le
        _ ≤ _ := by rw [mul_one]; exact exp_le_exp.mpr h2)
    (intervalIntegrable_const)
    (Filter.Eventually.of_forall fun t _ y _ => by
      have h1 : HasDerivAt (fun y : ℝ => exp (y * cos t)) (exp (y * cos t) * (1 * cos t)) y :=
        ((hasDerivAt_id y).mul_const (cos t)).exp
      simpa using h1)
  exact h.2.const_mul (1 / π)

private lemma cosSq_cont (k : ℝ) : Continuous fun t : ℝ => exp (k * cos t) * cos t ^ 2 := by fun_prop

/-- The derivative of `I_1`, as an integral. -/
private lemma deriv_one (k : ℝ) :
    HasDerivAt (fun k => besselI 1 k) (1 / π * ∫ t in (0 : ℝ)..π, exp (k * cos t) * cos t ^ 2) k := by
  have h := intervalIntegral.hasDerivAt_integral_of_dominated_loc_of_deriv_le (μ := volume)
    (a := 0) (b := π) (𝕜 := ℝ) (E := ℝ) (x₀ := k) (s := Metric.ball k 1)
    (F := fun k t => exp (k * cos t) * cos ((1 : ℕ) * t))
    (F' := fun k t => exp (k * cos t) * cos t ^ 2)
    (bound := fun _ => exp (|k| + 1))
    (Metric.ball_mem_nhds k one_pos)
    (Filter.Eventually.of_forall fun k =>
      ((bessel_cont 1 k).aestronglyMeasurable))
    ((bessel_cont 1 k).intervalIntegrable _ _)
    ((cosSq_cont k).aestronglyMeasurable)
    (Filter.Eventually.of_forall fun t _ y hy => by
      rw [norm_mul, norm_of_nonneg (exp_pos _).le]
      have h1 : ‖cos t ^ 2‖ ≤ 1 := by
        rw [norm_of_nonneg (sq_nonneg _)]; exact cos_sq_le_one t
      have h2 : y * cos t ≤ |k| + 1 := by
        have hy' : |y - k| < 1 := by simpa [Real.dist_eq] using hy
        have : |y| ≤ |k| + 1 := by
          have := abs_sub_abs_le_abs_sub y k
          linarith
        calc y * cos t ≤ |y * cos t| := le_abs_self _
          _ = |y| * |cos t| := abs_mul _ _
          _ ≤ |y| * 1 := mul_le_mul_of_nonneg_left (abs_cos_le_one t) (abs_nonneg y)
          _ ≤ _ := by linarith
      calc _ ≤ exp (y * cos t) * 1 := mul_le_mul_of_nonneg_left h1 (exp_pos _).le
        _ ≤ _ := by rw [mul_one]; exact exp_le_exp.mpr h2)
    (intervalIntegrable_const)
    (Filter.Eventually.of_forall fun t _ y _ => by
      have h1 : HasDerivAt (fun y : ℝ => exp (y * cos t)) (exp (y * cos t) * (1 * cos t)) y :=
        ((hasDerivAt_id y).mul_const (cos t)).exp
      have h2 := h1.mul_const (cos t)
      refine (h2.congr_deriv (by ring)).congr_of_eventuallyEq (Filter.Eventually.of_forall fun y => ?_)
      simp)
  exact h.2.const_mul (1 / π)

theorem bessel_cos_sq {k : ℝ} (hk : k ≠ 0) :
    1 / π * ∫ t in (0 : ℝ)..π, exp (k * cos t) * cos t ^ 2 = besselI 0 k - besselI 1 k / k := by
  have h1 : ∫ t in (0 : ℝ)..π, exp (k * cos t) * cos t ^ 2
      = ∫ t in (0 : ℝ)..π, (1 / 2 * (exp (k * cos t) * cos ((0 : ℕ) * t))
        + 1 / 2 * (exp (k * cos t) * cos ((2 : ℕ) * t))) := by
    congr 1; ext t
    push_cast
    rw [cos_two_mul, zero_mul, cos_zero]; ring
  rw [h1, intervalIntegral.integral_add (((bessel_cont 0 k).const_mul _).intervalIntegrable _ _)
    (((bessel_cont 2 k).const_mul _).intervalIntegrable _ _), intervalIntegral.integral_const_mul,
    intervalIntegral.integral_const_mul, besselI_pi, besselI_pi]
  have h2 := besselI_rec 0 k
  have h3 : besselI 2 k = besselI 0 k - 2 * besselI 1 k / k := by
    rw [eq_sub_iff_add_eq, ← eq_sub_iff_add_eq', div_eq_iff hk]
    push_cast at h2
    linarith
  rw [h3]
  have := pi_ne_zero
  field_simp
  ring

/-- `I_1' = I_0 - I_1/κ`. -/
theorem hasDerivAt_besselI_one {k : ℝ} (hk : k ≠ 0) :
    HasDerivAt (fun k => besselI 1 k) (besselI 0 k - besselI 1 k / k) k :=
  (deriv_one k).congr_deriv (bessel_cos_sq hk)

/-- `(log I_0)' = I_1/I_0`. -/
theorem hasDerivAt_log_besselI (k : ℝ) :
    HasDerivAt (fun k => log (besselI 0 k)) (besselI 1 k / besselI 0 k) k :=
  (hasDerivAt_besselI_zero k).log (besselI_zero_pos k).ne'

/-- The derivative of the mean resultant length `A1 = I_1/I_0` is `1 - A1/κ - A1²`. -/
theorem hasDerivAt_bessel_ratio {k : ℝ} (hk : k ≠ 0) :
    HasDerivAt (fun k => besselI 1 k / besselI 0 k)
      (1 - besselI 1 k / besselI 0 k / k - (besselI 1 k / besselI 0 k) ^ 2) k := by
  refine ((hasDerivAt_besselI_one hk).div (hasDerivAt_besselI_zero k) (besselI_zero_pos k).ne').congr_deriv ?_
  have := (besselI_zero_pos k).ne'
  field_simp

/-- That derivative is the variance of the cosine of a von Mises angle, hence positive. -/
theorem bessel_ratio_deriv_pos {k : ℝ} (hk : k ≠ 0) :
    0 < 1 - besselI 1 k / besselI 0 k / k - (besselI 1 k / besselI 0 k) ^ 2 := by
  have h0 := besselI_zero_pos k
  generalize hA : besselI 1 k / besselI 0 k = A
  have h1 : 0 < ∫ t in (0 : ℝ)..π, exp (k * cos t) * (cos t - A) ^ 2 := by
    have hc : Continuous fun t : ℝ => exp (k * cos t) * (cos t - A) ^ 2 := by fun_prop
    refine intervalIntegral.integral_pos pi_pos hc.continuousOn (fun t _ => by positivity) ?_
    by_cases h : A = 1
    · exact ⟨π, ⟨pi_pos.le, le_rfl⟩, by rw [cos_pi, h]; positivity⟩
    · refine ⟨0, ⟨le_rfl, pi_pos.le⟩, ?_⟩
      rw [cos_zero]
      have : (1 - A) ≠ 0 := fun h' => h (by linarith)
      positivity
  have h2 : ∫ t in (0 : ℝ)..π, exp (k * cos t) * (cos t - A) ^ 2
      = ∫ t in (0 : ℝ)..π, (exp (k * cos t) * cos t ^ 2 + (-(2 * A) * (exp (k * cos t) * cos ((1 : ℕ) * t))
        + A ^ 2 * (exp (k * cos t) * cos ((0 : ℕ) * t)))) := by
    congr 1; ext t
    push_cast
    rw [one_mul, zero_mul, cos_zero]; ring
  have i1 := (cosSq_cont k).intervalIntegrable (μ := volume) 0 π
  have i2 := ((bessel_cont 1 k).const_mul (-(2 * A))).intervalIntegrable (μ := volume) 0 π
  have i3 := ((bessel_cont 0 k).const_mul (A ^ 2)).intervalIntegrable (μ := volume) 0 π
  rw [h2, intervalIntegral.integral_add i1 (i2.add i3), intervalIntegral.integral_add i2 i3,
    intervalIntegral.integral_const_mul, intervalIntegral.integral_const_mul, besselI_pi, besselI_pi] at h1
  have h3 := bessel_cos_sq hk
  rw [one_div, inv_mul_eq_iff_eq_mul₀ pi_ne_zero] at h3
  rw [h3] at h1
  have hI : besselI 1 k = A * besselI 0 k := by rw [← hA, div_mul_cancel₀ _ h0.ne']
  rw [hI] at h1
  have h4 : 0 < π * besselI 0 k * (1 - A / k - A ^ 2) := by
    have e : π * besselI 0 k * (1 - A / k - A ^ 2) = π * (besselI 0 k - A * besselI 0 k / k)
      + (-(2 * A) * (π * (A * besselI 0 k)) + A ^ 2 * (π * besselI 0 k)) := by ring
    rw [e]; exact h1
  exact (pos_iff_pos_of_mul_pos h4).1 (by positivity)

end Verif
