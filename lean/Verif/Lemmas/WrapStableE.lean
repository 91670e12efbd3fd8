import Verif.Lemmas.WrapStableD
import Mathlib.Analysis.Complex.MeanValue
import Mathlib.Analysis.SpecialFunctions.PolarCoord
import Mathlib.Analysis.SpecialFunctions.Gaussian.FourierTransform
import Mathlib.MeasureTheory.Integral.DominatedConvergence

/-! # Characteristic functions of the two symmetric special cases of the wrapped stable sampler -/

set_option autoImplicit false

namespace Verif

open Verif.Spec Real MeasureTheory Set

/-! ## Cauchy -/

lemma cayley_circle (theta : ℝ) :
    (1 - circleMap 0 1 theta) / (1 + circleMap 0 1 theta) = -(Complex.I * tan (theta / 2)) := by
  have e : circleMap 0 1 theta = Complex.exp (theta / 2 * Complex.I) * Complex.exp (theta / 2 * Complex.I) := by
    rw [← Complex.exp_add]
    simp [circleMap]
    ring_nf
  have e0 : Complex.exp (theta / 2 * Complex.I) ≠ 0 := Complex.exp_ne_zero _
  have e1 : Complex.exp (theta / 2 * Complex.I) * Complex.exp (-(theta / 2) * Complex.I) = 1 := by
    rw [← Complex.exp_add]; ring_nf; simp
  have n : 1 - circleMap 0 1 theta = Complex.exp (theta / 2 * Complex.I) * (-(2 * Complex.I) * Complex.sin (theta / 2)) := by
    rw [e, Complex.sin]
    linear_combination (-(1 : ℂ)) * e1 + (Complex.exp (theta / 2 * Complex.I) * (Complex.exp (-(theta / 2) * Complex.I)
      - Complex.exp (theta / 2 * Complex.I))) * Complex.I_sq
  have d : 1 + circleMap 0 1 theta = Complex.exp (theta / 2 * Complex.I) * (2 * Complex.cos (theta / 2)) := by
    rw [e, Complex.cos]
    linear_combination (-(1 : ℂ)) * e1
  rw [n, d, mul_div_mul_left _ _ e0, Complex.ofReal_tan]
  push_cast
  rw [Complex.tan, mul_div_mul_comm]
  ring

lemma cayley_re {w : ℂ} (hw : ‖w‖ < 1) : 0 ≤ ((1 - w) / (1 + w)).re := by
  rw [Complex.div_re, ← add_div]
  refine div_nonneg ?_ (Complex.normSq_nonneg _)
  have h : w.re * w.re + w.im * w.im < 1 := by
    have h2 : ‖w‖ ^ 2 < 1 := by nlinarith [norm_nonneg w]
    rw [← Complex.normSq_eq_norm_sq, Complex.normSq_apply] at h2
    exact h2
  simp only [Complex.sub_re, Complex.add_re, Complex.one_re, Complex.sub_im, Complex.add_im, Complex.one_im]
  nlinarith

lemma one_add_circle {theta : ℝ} (h0 : 0 < theta) (h1 : theta ≤ 2 * π) (h : theta ≠ π) : 1 + circleMap 0 1 theta ≠ 0 := by
  intro hz
  have e : circleMap 0 1 theta = Complex.exp (theta * Complex.I) := by simp [circleMap]
  rw [e] at hz
  have hr := congrArg Complex.re hz
  rw [Complex.add_re, Complex.one_re, Complex.exp_ofReal_mul_I_re, Complex.zero_re] at hr
  have hc : cos (theta - π) = 1 := by rw [cos_sub_pi]; linarith
  have := (cos_eq_one_iff_of_lt_of_lt (x := theta - π) (by linarith [pi_pos]) (by linarith [pi_pos])).1 hc
  exact h (by linarith)

lemma cauchy_char {a : ℝ} (ha : 0 ≤ a) :
    ∫ V in (-(π / 2))..(π / 2), Complex.exp (Complex.I * (a * tan V : ℝ)) = π * exp (-a) := by
  have hpi := pi_pos
  obtain ⟨f, hf⟩ : ∃ f : ℂ → ℂ, f = fun w => Complex.exp (-(a * ((1 - w) / (1 + w)))) := ⟨_, rfl⟩
  have hfd : ∀ w : ℂ, 1 + w ≠ 0 → DifferentiableAt ℂ f w := by
    intro w hw
    rw [hf]
    fun_prop (disch := exact hw)
  have hne : ∀ w : ℂ, ‖w‖ < 1 → 1 + w ≠ 0 := by
    intro w hw h
    rw [show w = -1 by linear_combination h] at hw
    simp at hw
  have h1 : ∀ r : ℝ, r ∈ Ioo (0 : ℝ) 1 → ∫ theta in (0 : ℝ)..(2 * π), f (circleMap 0 r theta) = 2 * π * exp (-a) := by
    intro r hr
    have hD : DifferentiableOn ℂ f (Metric.ball 0 1) := fun w hw => (hfd w (hne w (by simpa using hw))).differentiableWithinAt
    have hd : DiffContOnCl ℂ f (Metric.ball 0 |r|) := by
      refine hD.diffContOnCl_ball ?_
      rw [abs_of_pos hr.1]
      exact Metric.closedBall_subset_ball hr.2
    have h := hd.circleAverage
    rw [circleAverage_def, show f 0 = Complex.exp (-a) by rw [hf]; simp] at h
    have hc : ((2 * π : ℝ) : ℂ) ≠ 0 := by exact_mod_cast two_pi_pos.ne'
    rw [Complex.real_smul, Complex.ofReal_inv, inv_mul_eq_iff_eq_mul₀ hc] at h
    rw [h]
    push_cast
    ring
  have hlim : Filter.Tendsto (fun r : ℝ => ∫ theta in (0 : ℝ)..(2 * π), f (circleMap 0 r theta)) (nhdsWithin 1 (Iio 1))
      (nhds (∫ theta in (0 : ℝ)..(2 * π), f (circleMap 0 1 theta))) := by
    have hev : ∀ᶠ r : ℝ in nhdsWithin 1 (Iio 1), r ∈ Ioo (0 : ℝ) 1 := Ioo_mem_nhdsLT zero_lt_one
    have hfm : Measurable f := by rw [hf]; fun_prop
    have hcm : ∀ r : ℝ, Continuous (circleMap 0 r) := fun r => continuous_circleMap 0 r
    refine intervalIntegral.tendsto_integral_filter_of_dominated_convergence (fun _ => 1) ?_ ?_ ?_ ?_
    · exact Filter.Eventually.of_forall fun r => (hfm.comp (hcm r).measurable).aestronglyMeasurable
    · refine hev.mono fun r hr => Filter.Eventually.of_forall fun theta _ => ?_
      have hn : ‖circleMap 0 r theta‖ < 1 := by
        rw [norm_circleMap_zero, abs_of_pos hr.1]; exact hr.2
      rw [hf]
      simp only
      rw [Complex.norm_exp]
      have hre := cayley_re hn
      rw [show (-(a * ((1 - circleMap 0 r theta) / (1 + circleMap 0 r theta))) : ℂ).re
        = -(a * ((1 - circleMap 0 r theta) / (1 + circleMap 0 r theta)).re) by
          rw [Complex.neg_re, Complex.re_ofReal_mul]]
      exact exp_le_one_iff.2 (by nlinarith)
    · exact intervalIntegrable_const
    · have hnull : ∀ᵐ theta : ℝ, theta ≠ π := by
        rw [ae_iff]
        simp
      filter_upwards [hnull] with theta hth hmem
      rw [uIoc_of_le two_pi_pos.le] at hmem
      have hc := (hfd _ (one_add_circle hmem.1 hmem.2 hth)).continuousAt
      refine Filter.Tendsto.comp (y := nhds (circleMap 0 1 theta)) hc ?_
      refine Filter.Tendsto.mono_left ?_ nhdsWithin_le_nhds
      have : Continuous fun r : ℝ => circleMap 0 r theta := by unfold circleMap; fun_prop
      exact this.tendsto 1
  have hconst : Filter.Tendsto (fun r : ℝ => ∫ theta in (0 : ℝ)..(2 * π), f (circleMap 0 r theta)) (nhdsWithin 1 (Iio 1))
      (nhds (2 * π * exp (-a) : ℂ)) := by
    refine Filter.Tendsto.congr' ?_ tendsto_const_nhds
    have hev : ∀ᶠ r : ℝ in nhdsWithin 1 (Iio 1), r ∈ Ioo (0 : ℝ) 1 := Ioo_mem_nhdsLT zero_lt_one
    exact hev.mono fun r hr => (h1 r hr).symm
  have heq := tendsto_nhds_unique hlim hconst
  have hval : ∀ theta : ℝ, f (circleMap 0 1 theta) = (fun V : ℝ => Complex.exp (Complex.I * (a * tan V : ℝ))) (theta / 2) := by
    intro theta
    rw [hf]
    simp only
    rw [cayley_circle]
    congr 1
    push_cast
    ring
  simp only [hval] at heq
  rw [intervalIntegral.integral_comp_div (fun V : ℝ => Complex.exp (Complex.I * (a * tan V : ℝ))) two_ne_zero] at heq
  have hper : Function.Periodic (fun V : ℝ => Complex.exp (Complex.I * (a * tan V : ℝ))) π := fun V => by
    simp only [tan_periodic V]
  have hsh := hper.intervalIntegral_add_eq (-(π / 2)) 0
  rw [show -(π / 2) + π = π / 2 by ring, zero_add] at hsh
  rw [hsh]
  rw [zero_div, show 2 * π / 2 = π by ring, Complex.real_smul] at heq
  push_cast at heq ⊢
  have h2 : (2 : ℂ) ≠ 0 := two_ne_zero
  have := mul_left_cancel₀ h2 (heq.trans (by ring : (2 * π * Complex.exp (-a) : ℂ) = 2 * (π * Complex.exp (-a))))
  exact this


/-! ## Normal -/

lemma gauss_cos (t : ℝ) : ∫ y : ℝ, exp (-y ^ 2) * cos (t * y) = √π * exp (-(t ^ 2 / 4)) := by
  have h := fourierIntegral_gaussian (b := 1) (by simp) (t : ℂ)
  have h2 := congrArg Complex.re h
  have hi : Integrable fun x : ℝ => Complex.exp (Complex.I * t * x) * Complex.exp (-1 * (x : ℂ) ^ 2) := by
    have := (integrable_exp_neg_mul_sq (b := 1) one_pos)
    refine Integrable.mono' this (Continuous.aestronglyMeasurable (by fun_prop)) (Filter.Eventually.of_forall fun x => ?_)
    rw [norm_mul, show Complex.I * t * x = ((t * x : ℝ) : ℂ) * Complex.I by push_cast; ring, Complex.norm_exp_ofReal_mul_I,
      show (-1 * (x : ℂ) ^ 2) = ((-1 * x ^ 2 : ℝ) : ℂ) by push_cast; ring, ← Complex.ofReal_exp, Complex.norm_of_nonneg (exp_pos _).le, one_mul]
  rw [← Complex.reCLM_apply, ← ContinuousLinearMap.integral_comp_comm _ hi] at h2
  have e1 : ∀ x : ℝ, Complex.reCLM (Complex.exp (Complex.I * t * x) * Complex.exp (-1 * (x : ℂ) ^ 2)) = exp (-x ^ 2) * cos (t * x) := by
    intro x
    rw [Complex.reCLM_apply, show Complex.I * t * x = ((t * x : ℝ) : ℂ) * Complex.I by push_cast; ring,
      show (-1 * (x : ℂ) ^ 2) = ((-x ^ 2 : ℝ) : ℂ) by push_cast; ring, ← Complex.ofReal_exp, Complex.re_mul_ofReal, Complex.exp_ofReal_mul_I_re]
    ring
  simp only [e1] at h2
  rw [h2, div_one, show (1 / 2 : ℂ) = ((1 / 2 : ℝ) : ℂ) by push_cast; ring, ← Complex.ofReal_cpow pi_pos.le,
    show (-(t : ℂ) ^ 2 / (4 * 1)) = ((-(t ^ 2 / 4) : ℝ) : ℂ) by push_cast; ring, ← Complex.ofReal_exp, ← Complex.ofReal_mul, Complex.ofReal_re,
    sqrt_eq_rpow]

/-- The radial integral. -/
noncomputable def radial (t s : ℝ) : ℝ := ∫ r in Ioi (0 : ℝ), r * (exp (-r ^ 2) * cos (t * (s * r)))

lemma radial_exp (t s : ℝ) : ∫ W in Ioi (0 : ℝ), exp (-W) * cos (t * (s * √W)) = 2 * radial t s := by
  rw [← integral_comp_rpow_Ioi_of_pos (g := fun W => exp (-W) * cos (t * (s * √W))) zero_lt_two, radial, ← integral_const_mul]
  refine setIntegral_congr_fun measurableSet_Ioi fun r hr => ?_
  have hr : 0 < r := hr
  simp only [smul_eq_mul]
  rw [show (2 : ℝ) - 1 = 1 by norm_num, rpow_one, rpow_two, sqrt_sq hr.le]
  ring

lemma radial_total (t : ℝ) : ∫ theta in (-π)..π, radial t (sin theta) = π * exp (-(t ^ 2 / 4)) := by
  have hpi := pi_pos
  have h := integral_comp_polarCoord_symm fun p : ℝ × ℝ => exp (-p.1 ^ 2) * (exp (-p.2 ^ 2) * cos (t * p.2))
  rw [Measure.volume_eq_prod, integral_prod_mul (fun x : ℝ => exp (-x ^ 2)) (fun y => exp (-y ^ 2) * cos (t * y)), gauss_cos] at h
  have hg : ∫ x : ℝ, exp (-x ^ 2) = √π := by
    have := integral_gaussian 1
    simpa using this
  rw [hg, ← mul_assoc, mul_self_sqrt hpi.le] at h
  rw [← h]
  have hT : polarCoord.target = Ioi (0 : ℝ) ×ˢ Ioo (-π) π := rfl
  rw [hT]
  have hms : MeasurableSet (Ioi (0 : ℝ) ×ˢ Ioo (-π) π) := measurableSet_Ioi.prod measurableSet_Ioo
  have hc : ∀ p : ℝ × ℝ, p.1 • (exp (-(polarCoord.symm p).1 ^ 2) * (exp (-(polarCoord.symm p).2 ^ 2) * cos (t * (polarCoord.symm p).2)))
      = p.1 * (exp (-p.1 ^ 2) * cos (t * (sin p.2 * p.1))) := by
    intro p
    have e1 : (polarCoord.symm p).1 = p.1 * cos p.2 := rfl
    have e2 : (polarCoord.symm p).2 = p.1 * sin p.2 := rfl
    rw [e1, e2, smul_eq_mul, ← mul_assoc (exp _), ← exp_add, mul_comm p.1 (sin p.2)]
    congr 3
    nlinarith [sin_sq_add_cos_sq p.2]
  simp only [hc]
  rw [← Measure.prod_restrict, integral_prod_symm]
  · rw [intervalIntegral.integral_of_le (by linarith), integral_Ioc_eq_integral_Ioo]
    rfl
  · have hr : IntegrableOn (fun r : ℝ => r * exp (-r ^ 2)) (Ioi 0) := by
      have := (integrable_mul_exp_neg_mul_sq (b := 1) one_pos).integrableOn (s := Ioi 0)
      simpa using this
    have h1 : IntegrableOn (fun _ : ℝ => (1 : ℝ)) (Ioo (-π) π) := integrableOn_const (by simp)
    have h2 := hr.mul_prod h1
    refine h2.mono (Continuous.aestronglyMeasurable (by fun_prop)) (Filter.Eventually.of_forall fun p => ?_)
    rw [mul_one, ← mul_assoc, norm_mul]
    have : ‖cos (t * (sin p.2 * p.1))‖ ≤ 1 := abs_cos_le_one _
    have hn := norm_nonneg (p.1 * exp (-p.1 ^ 2))
    nlinarith

lemma radial_half (t : ℝ) : ∫ theta in (-(π / 2))..(π / 2), 2 * radial t (sin theta) = π * exp (-(t ^ 2 / 4)) := by
  have hpi := pi_pos
  have hcont : Continuous fun theta => radial t (sin theta) := by
    have hb : IntegrableOn (fun r : ℝ => r * exp (-r ^ 2)) (Ioi 0) := by
      have := (integrable_mul_exp_neg_mul_sq (b := 1) one_pos).integrableOn (s := Ioi 0)
      simpa using this
    unfold radial
    refine continuous_of_dominated (bound := fun r => ‖r * exp (-r ^ 2)‖) (fun theta => Continuous.aestronglyMeasurable (by fun_prop))
      (fun theta => Filter.Eventually.of_forall fun r => ?_) hb.norm (Filter.Eventually.of_forall fun r => by fun_prop)
    rw [← mul_assoc, norm_mul]
    have : ‖cos (t * (sin theta * r))‖ ≤ 1 := abs_cos_le_one _
    have hn := norm_nonneg (r * exp (-r ^ 2))
    nlinarith
  have hii : ∀ a b : ℝ, IntervalIntegrable (fun theta => radial t (sin theta)) volume a b := fun a b => hcont.intervalIntegrable a b
  have hper : Function.Periodic (fun theta => radial t (sin theta)) (2 * π) := fun x => by simp only [sin_add_two_pi]
  have h1 := hper.intervalIntegral_add_eq (-π) (-(π / 2))
  rw [show -π + 2 * π = π by ring, radial_total] at h1
  have h2 := intervalIntegral.integral_add_adjacent_intervals (hii (-(π / 2)) (π / 2)) (hii (π / 2) (-(π / 2) + 2 * π))
  have h3 : ∫ theta in (π / 2)..(-(π / 2) + 2 * π), radial t (sin theta) = ∫ theta in (-(π / 2))..(π / 2), radial t (sin theta) := by
    have := intervalIntegral.integral_comp_sub_left (a := -(π / 2)) (b := π / 2) (fun theta => radial t (sin theta)) π
    simp only [sin_pi_sub] at this
    rw [this]
    congr 1 <;> ring
  rw [h3, ← h1] at h2
  rw [intervalIntegral.integral_const_mul]
  linarith

/-! ## In terms of the draws -/

lemma drawMean_iter {f : ℝ → ℝ → ℝ} (hm : Measurable fun p : ℝ × ℝ => f p.1 p.2) (hb : ∀ V W, |f V W| ≤ 1) :
    drawMean f = 1 / π * ∫ V in (-(π / 2))..(π / 2), ∫ W in Ioi (0 : ℝ), exp (-W) * f V W := by
  have hpi := pi_pos
  unfold drawMean
  rw [draw_measure, integral_prod, intervalIntegral.integral_of_le (by linarith), integral_Ioc_eq_integral_Ioo]
  have h1 : IntegrableOn (fun _ : ℝ => (1 : ℝ)) (Ioo (-(π / 2)) (π / 2)) := integrableOn_const (by simp)
  have h2 : IntegrableOn (fun W : ℝ => exp (-W)) (Ioi 0) := integrableOn_exp_neg_Ioi 0
  refine (h1.mul_prod h2).mono (Measurable.aestronglyMeasurable (by fun_prop)) (Filter.Eventually.of_forall fun p => ?_)
  rw [one_mul, norm_mul]
  have : ‖f p.1 p.2‖ ≤ 1 := hb _ _
  have hn := norm_nonneg (exp (-p.2))
  nlinarith

lemma drawMean_V {f : ℝ → ℝ} (hm : Measurable f) (hb : ∀ V, |f V| ≤ 1) :
    drawMean (fun V _ => f V) = 1 / π * ∫ V in (-(π / 2))..(π / 2), f V := by
  rw [drawMean_iter (by fun_prop) fun V _ => hb V]
  congr 1
  refine intervalIntegral.integral_congr fun V _ => ?_
  show ∫ W in Ioi (0 : ℝ), exp (-W) * f V = f V
  rw [integral_mul_const, integral_exp_neg_Ioi_zero, one_mul]

end Verif
