import Verif.Lemmas.FourierGrid
import Verif.Lemmas.FourierCos

/-! # Cosine series of smooth even periodic functions -/

set_option autoImplicit false

namespace Verif

open Real MeasureTheory Verif.Spec

/-- The cosine coefficients of a twice continuously differentiable periodic function decay like `1/n²`. -/
theorem cos_coeff_bound {g : ℝ → ℝ} (hC : ContDiff ℝ 2 g) (hper : Function.Periodic g (2 * π)) :
    ∃ C, ∀ n : ℕ, |∫ t in (0 : ℝ)..(2 * π), g t * cos (((n + 1 : ℕ) : ℝ) * t)| ≤ C * (1 / ((n + 1 : ℕ) : ℝ) ^ 2) := by
  have hp := two_pi_pos
  have hC1 : ContDiff ℝ 1 (deriv g) := by
    have : ContDiff ℝ (1 + 1) g := by simpa [one_add_one_eq_two] using hC
    exact (contDiff_succ_iff_deriv.1 this).2.2
  have d0 : ∀ x, HasDerivAt g (deriv g x) x := fun x => ((hC.differentiable (by norm_num)) x).hasDerivAt
  have d1 : ∀ x, HasDerivAt (deriv g) (deriv (deriv g) x) x := fun x => ((hC1.differentiable (by norm_num)) x).hasDerivAt
  have c2 : Continuous (deriv (deriv g)) := hC1.continuous_deriv le_rfl
  have c1 : Continuous (deriv g) := hC1.continuous
  have c0 : Continuous g := hC.continuous
  have p1 : deriv g (2 * π) = deriv g 0 := by
    have : Function.Periodic (deriv g) (2 * π) := by
      intro x
      rw [← deriv_comp_add_const]
      congr 1
      funext y
      exact hper y
    simpa using this 0
  refine ⟨∫ t in (0 : ℝ)..(2 * π), |deriv (deriv g) t|, fun n => ?_⟩
  obtain ⟨m, hm⟩ : ∃ m : ℝ, ((n + 1 : ℕ) : ℝ) = m := ⟨_, rfl⟩
  have hm0 : 0 < m := by rw [← hm]; positivity
  have es : sin (m * (2 * π)) = 0 := by
    rw [← hm, show ((n + 1 : ℕ) : ℝ) * (2 * π) = ((2 * (n + 1) : ℕ) : ℝ) * π by push_cast; ring]
    exact sin_nat_mul_pi _
  have ec : cos (m * (2 * π)) = 1 := by
    rw [← hm]; exact cos_nat_mul_two_pi _
  rw [hm]
  have i1 : ∫ t in (0 : ℝ)..(2 * π), g t * cos (m * t) = -(1 / m * ∫ t in (0 : ℝ)..(2 * π), deriv g t * sin (m * t)) := by
    have hv : ∀ x, HasDerivAt (fun t => sin (m * t) / m) (cos (m * x)) x := fun x => by
      have h := ((hasDerivAt_id' x).const_mul m).sin.div_const m
      refine h.congr_deriv ?_
      field_simp
    rw [intervalIntegral.integral_mul_deriv_eq_deriv_mul (fun x _ => d0 x) (fun x _ => hv x)
      (c1.intervalIntegrable _ _) ((by fun_prop : Continuous fun t => cos (m * t)).intervalIntegrable _ _)]
    simp only [es, mul_zero, sin_zero, zero_div, sub_self, zero_sub]
    congr 1
    rw [← intervalIntegral.integral_const_mul]
    exact intervalIntegral.integral_congr fun t _ => by ring
  have i2 : ∫ t in (0 : ℝ)..(2 * π), deriv g t * sin (m * t) = 1 / m * ∫ t in (0 : ℝ)..(2 * π), deriv (deriv g) t * cos (m * t) := by
    have hv : ∀ x, HasDerivAt (fun t => -cos (m * t) / m) (sin (m * x)) x := fun x => by
      have h := (((hasDerivAt_id' x).const_mul m).cos.neg).div_const m
      refine h.congr_deriv ?_
      field_simp
    rw [intervalIntegral.integral_mul_deriv_eq_deriv_mul (fun x _ => d1 x) (fun x _ => hv x)
      (c2.intervalIntegrable _ _) ((by fun_prop : Continuous fun t => sin (m * t)).intervalIntegrable _ _)]
    simp only [ec, mul_zero, cos_zero, p1, sub_self, zero_sub]
    rw [← intervalIntegral.integral_const_mul, ← intervalIntegral.integral_neg]
    exact intervalIntegral.integral_congr fun t _ => by ring
  rw [i1, i2, abs_neg, abs_mul, abs_mul, abs_of_pos (by positivity : (0 : ℝ) < 1 / m)]
  have i3 : |∫ t in (0 : ℝ)..(2 * π), deriv (deriv g) t * cos (m * t)| ≤ ∫ t in (0 : ℝ)..(2 * π), |deriv (deriv g) t| := by
    refine (intervalIntegral.abs_integral_le_integral_abs hp.le).trans ?_
    refine intervalIntegral.integral_mono_on hp.le ((by fun_prop : Continuous fun t => |deriv (deriv g) t * cos (m * t)|).intervalIntegrable _ _)
      ((by fun_prop : Continuous fun t => |deriv (deriv g) t|).intervalIntegrable _ _) fun t _ => ?_
    rw [abs_mul]
    exact mul_le_of_le_one_right (abs_nonneg _) (abs_cos_le_one _)
  calc 1 / m * (1 / m * |∫ t in (0 : ℝ)..(2 * π), deriv (deriv g) t * cos (m * t)|)
      = |∫ t in (0 : ℝ)..(2 * π), deriv (deriv g) t * cos (m * t)| * (1 / m ^ 2) := by field_simp
    _ ≤ _ := mul_le_mul_of_nonneg_right i3 (by positivity)

theorem cos_coeff_summable {g : ℝ → ℝ} (hC : ContDiff ℝ 2 g) (hper : Function.Periodic g (2 * π)) :
    Summable fun n : ℕ => |∫ t in (0 : ℝ)..(2 * π), g t * cos ((n : ℝ) * t)| := by
  obtain ⟨C, hCb⟩ := cos_coeff_bound hC hper
  rw [← summable_nat_add_iff 1]
  refine Summable.of_nonneg_of_le (fun n => abs_nonneg _) hCb ?_
  exact ((summable_nat_add_iff 1).2 (summable_one_div_nat_pow.2 (by norm_num : 1 < 2))).mul_left C

/-- A twice continuously differentiable even periodic function is the sum of its cosine series. -/
theorem cos_series {g : ℝ → ℝ} (hC : ContDiff ℝ 2 g) (hper : Function.Periodic g (2 * π)) (heven : ∀ t, g (-t) = g t)
    (phi : ℝ) :
    g phi = 1 / (2 * π) * ((∫ t in (0 : ℝ)..(2 * π), g t)
      + 2 * ∑' l : ℕ, (∫ t in (0 : ℝ)..(2 * π), g t * cos (((l + 1 : ℕ) : ℝ) * t)) * cos (((l + 1 : ℕ) : ℝ) * phi)) := by
  have c0 : Continuous g := hC.continuous
  have hpi := pi_pos
  have half : ∀ n : ℕ, ∫ t in (0 : ℝ)..(2 * π), g t * cos ((n : ℝ) * t) = 2 * ∫ t in (0 : ℝ)..π, g t * cos ((n : ℝ) * t) := by
    intro n
    have := period_even (g := fun t => g t * cos ((n : ℝ) * t)) (by fun_prop)
      (fun t => by
        show g (t + 2 * π) * cos ((n : ℝ) * (t + 2 * π)) = _
        rw [hper t, mul_add, cos_add_nat_mul_two_pi]) (fun t => by
        show g (-t) * cos ((n : ℝ) * -t) = _
        rw [heven, mul_neg, cos_neg]) 0
    simpa using this
  have hs : Summable fun n : ℕ => 1 / π * ∫ t in (0 : ℝ)..π, g t * cos ((n : ℝ) * t) := by
    have h1 := (cos_coeff_summable hC hper).of_abs
    simp only [half] at h1
    have h2 := h1.mul_left (1 / (2 * π))
    refine h2.congr fun n => ?_
    field_simp
  have h := (cosSeries_hasSum c0 hper heven (fun n => rfl) hs phi).tsum_eq
  have e1 : ∫ t in (0 : ℝ)..(2 * π), g t = 2 * ∫ t in (0 : ℝ)..π, g t := by simpa using half 0
  rw [e1]
  simp only [half]
  have e2 : ∑' n : ℕ, 2 * (1 / π * ∫ t in (0 : ℝ)..π, g t * cos (((n + 1 : ℕ) : ℝ) * t)) * cos (((n + 1 : ℕ) : ℝ) * phi)
      = 1 / π * ∑' n : ℕ, 2 * (∫ t in (0 : ℝ)..π, g t * cos (((n + 1 : ℕ) : ℝ) * t)) * cos (((n + 1 : ℕ) : ℝ) * phi) := by
    rw [← tsum_mul_left]
    exact tsum_congr fun n => by ring
  rw [e2] at h
  have e3 : ∫ t in (0 : ℝ)..π, g t * cos (((0 : ℕ) : ℝ) * t) = ∫ t in (0 : ℝ)..π, g t := by simp
  rw [e3] at h
  have h' : g phi = 1 / π * ∑' n : ℕ, 2 * (∫ t in (0 : ℝ)..π, g t * cos (((n + 1 : ℕ) : ℝ) * t)) * cos (((n + 1 : ℕ) : ℝ) * phi)
      + 1 / π * ∫ t in (0 : ℝ)..π, g t := by linarith
  rw [h']
  generalize ∑' n : ℕ, 2 * (∫ t in (0 : ℝ)..π, g t * cos (((n + 1 : ℕ) : ℝ) * t)) * cos (((n + 1 : ℕ) : ℝ) * phi) = S
  field_simp
  ring

end Verif
