import Verif.Model.DistWrapNorm
import Verif.Spec.Families
import Mathlib.Analysis.SpecialFunctions.Gaussian.PoissonSummation
import Mathlib.NumberTheory.ModularForms.JacobiTheta.TwoVariable
import Mathlib.Algebra.Order.ToIntervalMod
import Mathlib.Analysis.Real.Pi.Bounds

/-! # The wrapped normal distribution -/

set_option autoImplicit false

namespace Verif

open Verif.Spec Real MeasureTheory ProbabilityTheory

/-- The normal density with standard deviation `sigma`. -/
noncomputable def gk (sigma y : ℝ) : ℝ := exp (-y ^ 2 / (2 * sigma ^ 2)) / (sigma * √(2 * π))

lemma gk_pos {sigma : ℝ} (hs : 0 < sigma) (y : ℝ) : 0 < gk sigma y := by unfold gk; positivity

lemma gk_continuous (sigma : ℝ) : Continuous (gk sigma) := by
  unfold gk
  exact (continuous_exp.comp ((continuous_id.pow 2).neg.div_const _)).div_const _

lemma gk_neg (sigma y : ℝ) : gk sigma (-y) = gk sigma y := by unfold gk; rw [neg_sq]

lemma gk_eq {sigma : ℝ} (hs : 0 < sigma) (y : ℝ) : gk sigma y = gaussianPDFReal 0 (Real.toNNReal sigma ^ 2) y := by
  unfold gk gaussianPDFReal
  rw [NNReal.coe_pow, Real.coe_toNNReal _ hs.le, sub_zero, show √(2 * π * sigma ^ 2) = √(2 * π) * sigma by rw [sqrt_mul (by positivity), sqrt_sq hs.le]]
  field_simp

lemma gk_integrable {sigma : ℝ} (hs : 0 < sigma) : Integrable (gk sigma) := by
  have := integrable_gaussianPDFReal 0 (Real.toNNReal sigma ^ 2)
  exact this.congr (Filter.Eventually.of_forall fun y => (gk_eq hs y).symm)

lemma gk_mass {sigma : ℝ} (hs : 0 < sigma) : ∫ y, gk sigma y = 1 := by
  have h : Real.toNNReal sigma ^ 2 ≠ 0 := pow_ne_zero _ (by simpa using hs)
  rw [← integral_gaussianPDFReal_eq_one 0 h]
  exact integral_congr_ae (Filter.Eventually.of_forall fun y => gk_eq hs y)

lemma wrappedNormal_def (mu sigma x : ℝ) : wrappedNormal mu sigma x = ∑' k : ℤ, gk sigma (x - mu + 2 * π * k) := rfl

lemma gk_summable {sigma : ℝ} (hs : 0 < sigma) (y : ℝ) : Summable fun k : ℤ => gk sigma (y + 2 * π * k) := by
  have h := (summable_jacobiTheta₂_term_iff (Complex.I * (y / sigma ^ 2)) (Complex.I * (2 * π / sigma ^ 2))).mpr (by
    have : (Complex.I * (2 * π / sigma ^ 2)) = ((2 * π / sigma ^ 2 : ℝ) : ℂ) * Complex.I := by push_cast; ring
    rw [this, Complex.im_ofReal_mul, Complex.I_im, mul_one]
    positivity)
  have h2 := h.norm.mul_left (exp (-y ^ 2 / (2 * sigma ^ 2)) / (sigma * √(2 * π)))
  refine h2.congr fun k => ?_
  unfold jacobiTheta₂_term gk
  rw [Complex.norm_exp]
  have e : (2 * (π : ℂ) * Complex.I * k * (Complex.I * (y / sigma ^ 2)) + π * Complex.I * k ^ 2 * (Complex.I * (2 * π / sigma ^ 2)))
      = ((-(2 * π * k * y / sigma ^ 2) - 2 * π ^ 2 * k ^ 2 / sigma ^ 2 : ℝ) : ℂ) := by
    push_cast
    have := Complex.I_sq
    linear_combination (2 * π * k * y / sigma ^ 2 + 2 * π ^ 2 * k ^ 2 / sigma ^ 2 : ℂ) * this
  rw [e, Complex.ofReal_re, div_mul_eq_mul_div, ← exp_add]
  congr 2
  field_simp
  ring

/-! ## Fourier series -/

lemma wn_poisson {sigma : ℝ} (hs : 0 < sigma) (y : ℝ) :
    ∑' k : ℤ, Complex.exp (-(sigma ^ 2 / 2 * k ^ 2 : ℝ) - (k * y : ℝ) * Complex.I) = ((2 * π * ∑' k : ℤ, gk sigma (y + 2 * π * k) : ℝ) : ℂ) := by
  have ha : 0 < ((sigma ^ 2 / (2 * π) : ℝ) : ℂ).re := by rw [Complex.ofReal_re]; positivity
  have hp : (π : ℂ) ≠ 0 := by exact_mod_cast pi_pos.ne'
  have hsc : (sigma : ℂ) ≠ 0 := by exact_mod_cast hs.ne'
  have h := Complex.tsum_exp_neg_quadratic ha (-(Complex.I * (y / (2 * π))))
  have h1 : ∀ k : ℤ, -(π : ℂ) * ((sigma ^ 2 / (2 * π) : ℝ) : ℂ) * k ^ 2 + 2 * π * (-(Complex.I * (y / (2 * π)))) * k
      = -(sigma ^ 2 / 2 * k ^ 2 : ℝ) - (k * y : ℝ) * Complex.I := by
    intro k; push_cast; field_simp; ring
  have h2 : ∀ k : ℤ, -(π : ℂ) / ((sigma ^ 2 / (2 * π) : ℝ) : ℂ) * (k + Complex.I * (-(Complex.I * (y / (2 * π))))) ^ 2
      = ((-(y + 2 * π * k) ^ 2 / (2 * sigma ^ 2) : ℝ) : ℂ) := by
    intro k
    have : Complex.I * (-(Complex.I * (y / (2 * π)))) = (y / (2 * π) : ℂ) := by
      linear_combination (-(y / (2 * π)) : ℂ) * Complex.I_sq
    rw [this]; push_cast; field_simp; ring
  simp only [h1, h2] at h
  rw [h]
  have hsq : ((sigma ^ 2 / (2 * π) : ℝ) : ℂ) ^ (1 / 2 : ℂ) = ((sigma / √(2 * π) : ℝ) : ℂ) := by
    rw [show (1 / 2 : ℂ) = ((1 / 2 : ℝ) : ℂ) by push_cast; rfl, ← Complex.ofReal_cpow (by positivity), ← sqrt_eq_rpow,
      sqrt_div (by positivity), sqrt_sq hs.le]
  rw [hsq]
  simp only [← Complex.ofReal_exp]
  rw [← Complex.ofReal_tsum, ← Complex.ofReal_one, ← Complex.ofReal_div, ← Complex.ofReal_mul, Complex.ofReal_inj, ← tsum_mul_left, ← tsum_mul_left]
  refine tsum_congr fun k => ?_
  unfold gk
  have hq : √(2 * π) * √(2 * π) = 2 * π := mul_self_sqrt (by positivity)
  have hq0 : 0 < √(2 * π) := by positivity
  generalize exp (-(y + 2 * π * k) ^ 2 / (2 * sigma ^ 2)) = E
  obtain ⟨q, hqd⟩ : ∃ q, q = √(2 * π) := ⟨_, rfl⟩
  rw [← hqd] at hq hq0 ⊢
  rw [← hq]
  field_simp

/-- The cosine series of the wrapped normal density. -/
lemma wn_fourier {sigma : ℝ} (hs : 0 < sigma) (y : ℝ) :
    HasSum (fun n : ℕ => 2 * (exp (-sigma ^ 2 / 2) ^ ((n + 1) ^ 2) * cos ((n + 1 : ℕ) * y)))
      (2 * π * ∑' k : ℤ, gk sigma (y + 2 * π * k) - 1) := by
  have hsumm : Summable fun k : ℤ => Complex.exp (-(sigma ^ 2 / 2 * k ^ 2 : ℝ) - (k * y : ℝ) * Complex.I) := by
    have h := (summable_jacobiTheta₂_term_iff (-(y / (2 * π))) (Complex.I * (sigma ^ 2 / (2 * π)))).mpr (by
      have : (Complex.I * (sigma ^ 2 / (2 * π))) = ((sigma ^ 2 / (2 * π) : ℝ) : ℂ) * Complex.I := by push_cast; ring
      rw [this, Complex.im_ofReal_mul, Complex.I_im, mul_one]
      positivity)
    refine h.congr fun k => ?_
    unfold jacobiTheta₂_term
    congr 1
    have hp : (π : ℂ) ≠ 0 := by exact_mod_cast pi_pos.ne'
    push_cast
    field_simp
    linear_combination (k : ℂ) ^ 2 * sigma ^ 2 * Complex.I_sq
  have h := hsumm.hasSum
  rw [wn_poisson hs] at h
  have h' := Complex.hasSum_re h
  have e : ∀ k : ℤ, (Complex.exp (-(sigma ^ 2 / 2 * k ^ 2 : ℝ) - (k * y : ℝ) * Complex.I)).re
      = exp (-(sigma ^ 2 / 2 * k ^ 2)) * cos (k * y) := by
    intro k
    rw [← Complex.ofReal_neg, Complex.exp_re, Complex.sub_re, Complex.sub_im, Complex.ofReal_re, Complex.ofReal_im,
      Complex.re_ofReal_mul, Complex.im_ofReal_mul, Complex.I_re, Complex.I_im, mul_zero, mul_one, sub_zero, zero_sub, cos_neg]
  simp only [e, Complex.ofReal_re] at h'
  have h2 := h'.nat_add_neg
  have h3 := (hasSum_nat_add_iff' 1).mpr h2
  simp only [Finset.sum_range_one] at h3
  have e1 : ∀ n : ℕ, exp (-(sigma ^ 2 / 2 * (((n + 1 : ℕ) : ℤ) : ℝ) ^ 2)) * cos ((((n + 1 : ℕ) : ℤ) : ℝ) * y)
      + exp (-(sigma ^ 2 / 2 * ((-((n + 1 : ℕ) : ℤ) : ℤ) : ℝ) ^ 2)) * cos (((-((n + 1 : ℕ) : ℤ) : ℤ) : ℝ) * y)
      = 2 * (exp (-sigma ^ 2 / 2) ^ ((n + 1) ^ 2) * cos ((n + 1 : ℕ) * y)) := by
    intro n
    have : exp (-(sigma ^ 2 / 2 * ((n + 1 : ℕ) : ℝ) ^ 2)) = exp (-sigma ^ 2 / 2) ^ ((n + 1) ^ 2) := by
      rw [← exp_nat_mul]; congr 1; push_cast; ring
    rw [← this, Int.cast_neg, Int.cast_natCast, neg_sq, neg_mul, cos_neg]
    ring
  simp only [e1] at h3
  have e2 : 2 * π * ∑' (k : ℤ), gk sigma (y + 2 * π * k) + exp (-(sigma ^ 2 / 2 * ((0 : ℤ) : ℝ) ^ 2)) * cos (((0 : ℤ) : ℝ) * y) -
      (exp (-(sigma ^ 2 / 2 * (((0 : ℕ) : ℤ) : ℝ) ^ 2)) * cos ((((0 : ℕ) : ℤ) : ℝ) * y)
        + exp (-(sigma ^ 2 / 2 * ((-((0 : ℕ) : ℤ) : ℤ) : ℝ) ^ 2)) * cos (((-((0 : ℕ) : ℤ) : ℤ) : ℝ) * y))
      = 2 * π * ∑' (k : ℤ), gk sigma (y + 2 * π * k) - 1 := by
    simp
  rwa [e2] at h3

/-! ## Integrals -/

lemma gk_scale {sigma : ℝ} (hs : 0 < sigma) (y : ℝ) : gk 1 (y / sigma) / sigma = gk sigma y := by
  unfold gk
  rw [one_mul, one_pow, mul_one, div_div, mul_comm (√(2 * π)) sigma]
  congr 2
  field_simp

lemma ndtr_sub (a b : ℝ) : ndtr b - ndtr a = ∫ y in a..b, gk 1 y := by
  have h : ∀ z, ndtr z = ∫ y in Set.Iic z, gk 1 y := by
    intro z
    unfold ndtr
    rw [measureReal_def, gaussianReal_apply_eq_integral 0 one_ne_zero, ENNReal.toReal_ofReal]
    · refine integral_congr_ae (Filter.Eventually.of_forall fun y => ?_)
      have := gk_eq one_pos y
      rw [Real.toNNReal_one, one_pow] at this
      exact this.symm
    · exact integral_nonneg fun y => gaussianPDFReal_nonneg _ _ _
  rw [h, h]
  exact intervalIntegral.integral_Iic_sub_Iic (gk_integrable one_pos).integrableOn (gk_integrable one_pos).integrableOn

lemma wnDelta_eq {sigma : ℝ} (hs : 0 < sigma) (theta mu shift : ℝ) :
    wnDelta theta mu sigma shift = ∫ t in (0 : ℝ)..theta, gk sigma (t - mu + shift) := by
  unfold wnDelta
  rw [ndtr_sub]
  have h1 : ∀ t, gk sigma (t - mu + shift) = gk 1 (1 / sigma * t + (-mu + shift) * (1 / sigma)) * (1 / sigma) := by
    intro t
    rw [← gk_scale hs, mul_one_div]
    congr 2
    field_simp
    ring
  simp only [h1]
  rw [intervalIntegral.integral_mul_const, intervalIntegral.integral_comp_mul_add (fun y => gk 1 y) (by positivity : 1 / sigma ≠ 0)]
  rw [mul_zero, zero_add, smul_eq_mul, mul_right_comm, inv_mul_cancel₀ (by positivity : 1 / sigma ≠ 0), one_mul]
  congr 1
  ring

lemma gk_shift_continuous (sigma mu c : ℝ) : Continuous fun t => gk sigma (t - mu + c) :=
  (gk_continuous sigma).comp ((continuous_id.sub continuous_const).add continuous_const)

lemma gk_cell_hasSum {sigma : ℝ} (hs : 0 < sigma) (mu : ℝ) :
    HasSum (fun k : ℤ => ∫ t in (0 : ℝ)..(2 * π), gk sigma (t - mu + 2 * π * k)) 1 := by
  have h := hasSum_integral_iUnion (μ := volume) (f := gk sigma) (s := fun k : ℤ => Set.Ioc (-mu + k • (2 * π)) (-mu + (k + 1) • (2 * π)))
    (fun k => measurableSet_Ioc) (Set.pairwise_disjoint_Ioc_add_zsmul (-mu) (2 * π)) (gk_integrable hs).integrableOn
  rw [iUnion_Ioc_add_zsmul two_pi_pos, setIntegral_univ, gk_mass hs] at h
  have e : ∀ k : ℤ, ∫ y in Set.Ioc (-mu + k • (2 * π)) (-mu + (k + 1) • (2 * π)), gk sigma y
      = ∫ t in (0 : ℝ)..(2 * π), gk sigma (t - mu + 2 * π * k) := by
    intro k
    have hle : -mu + k • (2 * π) ≤ -mu + (k + 1) • (2 * π) := by
      rw [zsmul_eq_mul, zsmul_eq_mul]; push_cast; nlinarith [two_pi_pos]
    rw [← intervalIntegral.integral_of_le hle]
    have := intervalIntegral.integral_comp_add_right (fun y => gk sigma y) (-mu + 2 * π * k) (a := 0) (b := 2 * π)
    rw [show (fun t => gk sigma (t - mu + 2 * π * k)) = fun t => gk sigma (t + (-mu + 2 * π * k)) from
      funext fun t => by ring_nf, this]
    congr 1
    · rw [zsmul_eq_mul]; ring
    · rw [zsmul_eq_mul]; push_cast; ring
  simpa only [e] using h

lemma wn_hasSum {sigma : ℝ} (hs : 0 < sigma) (mu : ℝ) {theta : ℝ} (h0 : 0 ≤ theta) (h1 : theta ≤ 2 * π) :
    HasSum (fun k : ℤ => wnDelta theta mu sigma (2 * π * k)) (∫ t in (0 : ℝ)..theta, wrappedNormal mu sigma t) := by
  have hii : ∀ (k : ℤ) a b, IntervalIntegrable (fun t => gk sigma (t - mu + 2 * π * k)) volume a b := fun k a b =>
    (gk_shift_continuous sigma mu _).intervalIntegrable a b
  have hle : ∀ k : ℤ, ∫ t in (0 : ℝ)..theta, gk sigma (t - mu + 2 * π * k)
      ≤ ∫ t in (0 : ℝ)..(2 * π), gk sigma (t - mu + 2 * π * k) := by
    intro k
    rw [← intervalIntegral.integral_add_adjacent_intervals (hii k 0 theta) (hii k theta (2 * π))]
    linarith [intervalIntegral.integral_nonneg (μ := volume) h1 (fun t _ => (gk_pos hs (t - mu + 2 * π * k)).le)]
  have hs' : Summable fun k : ℤ => ∫ t in (0 : ℝ)..theta, gk sigma (t - mu + 2 * π * k) :=
    Summable.of_nonneg_of_le (fun k => intervalIntegral.integral_nonneg h0 fun t _ => (gk_pos hs _).le) hle
      (gk_cell_hasSum hs mu).summable
  have hI := hasSum_integral_of_summable_integral_norm (μ := volume.restrict (Set.Ioc 0 theta))
    (F := fun (k : ℤ) t => gk sigma (t - mu + 2 * π * k)) (fun k => (hii k 0 theta).1) (by
      simp only [Real.norm_of_nonneg (gk_pos hs _).le, ← intervalIntegral.integral_of_le h0]
      exact hs')
  simp only [← intervalIntegral.integral_of_le h0, ← wnDelta_eq hs] at hI
  exact hI

lemma wn_mass {sigma : ℝ} (hs : 0 < sigma) (mu : ℝ) : ∫ t in (0 : ℝ)..(2 * π), wrappedNormal mu sigma t = 1 := by
  refine (wn_hasSum hs mu two_pi_pos.le le_rfl).unique ?_
  simp only [wnDelta_eq hs]
  exact gk_cell_hasSum hs mu

lemma wn_pos {sigma : ℝ} (hs : 0 < sigma) (mu x : ℝ) : 0 < wrappedNormal mu sigma x :=
  (gk_summable hs (x - mu)).tsum_pos (fun k => (gk_pos hs _).le) 0 (gk_pos hs _)

lemma wn_eq_fourier {sigma : ℝ} (hs : 0 < sigma) (mu x : ℝ) :
    wrappedNormal mu sigma x
      = (1 + ∑' n : ℕ, 2 * (exp (-sigma ^ 2 / 2) ^ ((n + 1) ^ 2) * cos ((n + 1 : ℕ) * (x - mu)))) / (2 * π) := by
  rw [(wn_fourier hs (x - mu)).tsum_eq, wrappedNormal_def]
  field_simp
  ring

lemma rho_sq_le {r : ℝ} (h0 : 0 ≤ r) (h1 : r ≤ 1) (n : ℕ) : r ^ ((n + 1) ^ 2) ≤ r ^ n :=
  pow_le_pow_of_le_one h0 h1 (by nlinarith)

lemma exp_sigma_lt {sigma : ℝ} (hs : 0 < sigma) : exp (-sigma ^ 2 / 2) < 1 := by
  rw [exp_lt_one_iff]
  have := pow_pos hs 2
  linarith

lemma wn_continuous {sigma : ℝ} (hs : 0 < sigma) (mu : ℝ) : Continuous (wrappedNormal mu sigma) := by
  rw [show wrappedNormal mu sigma = fun x => _ from funext fun x => wn_eq_fourier hs mu x]
  refine (continuous_const.add (continuous_tsum (u := fun n => 2 * exp (-sigma ^ 2 / 2) ^ n) ?_ ?_ ?_)).div_const _
  · intro n
    exact continuous_const.mul (continuous_const.mul (continuous_cos.comp (continuous_const.mul (continuous_id.sub continuous_const))))
  · exact (summable_geometric_of_lt_one (exp_pos _).le (exp_sigma_lt hs)).mul_left 2
  · intro n x
    rw [norm_mul, norm_mul, norm_of_nonneg two_pos.le, norm_pow, norm_of_nonneg (exp_pos _).le, norm_eq_abs (cos _)]
    have := abs_cos_le_one ((n + 1 : ℕ) * (x - mu))
    have h2 := rho_sq_le (exp_pos (-sigma ^ 2 / 2)).le (exp_sigma_lt hs).le n
    have h3 : 0 ≤ exp (-sigma ^ 2 / 2) ^ ((n + 1) ^ 2) := by positivity
    nlinarith [abs_nonneg (cos ((n + 1 : ℕ) * (x - mu)))]

lemma wn_periodic (mu sigma : ℝ) : Function.Periodic (wrappedNormal mu sigma) (2 * π) := by
  intro x
  rw [wrappedNormal_def, wrappedNormal_def, ← (Equiv.addRight (1 : ℤ)).tsum_eq (fun k : ℤ => gk sigma (x - mu + 2 * π * k))]
  refine tsum_congr fun k => ?_
  simp only [Equiv.coe_addRight]
  congr 1
  push_cast
  ring

lemma wn_symm (mu sigma d : ℝ) : wrappedNormal mu sigma (mu - d) = wrappedNormal mu sigma (mu + d) := by
  rw [wrappedNormal_def, wrappedNormal_def, ← (Equiv.neg ℤ).tsum_eq (fun k : ℤ => gk sigma (mu + d - mu + 2 * π * k))]
  refine tsum_congr fun k => ?_
  rw [← gk_neg]
  congr 1
  simp only [Equiv.neg_apply]
  push_cast
  ring
end Verif
