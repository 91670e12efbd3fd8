import Verif.Model.DistCartwright
import Verif.Lemmas.Circle
import Mathlib.MeasureTheory.Function.JacobianOneDim
import Mathlib.Analysis.SpecialFunctions.Gamma.Beta
import Mathlib.MeasureTheory.Integral.IntervalIntegral.FundThmCalculus
import Mathlib.MeasureTheory.Integral.IntervalIntegral.Periodic

/-! # Helper lemmas: the kernel of Cartwright's distribution and the beta distribution -/

set_option autoImplicit false

namespace Verif

open Real MeasureTheory ProbabilityTheory

/-- The density as a function of the distance from the mean direction; `p` is `1 / zeta`. -/
noncomputable def cwG (p t : ℝ) : ℝ :=
  (2 : ℝ) ^ (-1 + p) * Gamma (1 + p) ^ 2 / (π * Gamma (1 + 2 * p)) * (1 + cos t) ^ p

lemma cwPdf_eq (x mu zeta : ℝ) : cwPdf x mu zeta = cwG (1 / zeta) (x - mu) := by
  unfold cwPdf cwG
  rw [show 2 / zeta = 2 * (1 / zeta) by ring]
  ring

lemma one_add_cos_nonneg (t : ℝ) : 0 ≤ 1 + cos t := by linarith [neg_one_le_cos t]

lemma cwK_pos {p : ℝ} (hp : 0 < p) : 0 < (2 : ℝ) ^ (-1 + p) * Gamma (1 + p) ^ 2 / (π * Gamma (1 + 2 * p)) := by
  have h1 := Gamma_pos_of_pos (by linarith : 0 < 1 + p)
  have h2 := Gamma_pos_of_pos (by linarith : 0 < 1 + 2 * p)
  have := pi_pos
  positivity

lemma cwG_nonneg {p : ℝ} (hp : 0 < p) (t : ℝ) : 0 ≤ cwG p t :=
  mul_nonneg (cwK_pos hp).le (rpow_nonneg (one_add_cos_nonneg t) _)

lemma cwG_continuous {p : ℝ} (hp : 0 < p) : Continuous (cwG p) := by
  unfold cwG
  exact continuous_const.mul ((continuous_const.add continuous_cos).rpow_const fun _ => Or.inr hp.le)

lemma cwG_neg (p t : ℝ) : cwG p (-t) = cwG p t := by unfold cwG; rw [cos_neg]

lemma cwG_periodic (p : ℝ) : Function.Periodic (cwG p) (2 * π) := by
  intro t; unfold cwG; rw [cos_add_two_pi]

lemma cwHalf_raw {p : ℝ} (hp : 0 < p) :
    (2 : ℝ) ^ (-1 + p) * Gamma (1 + p) ^ 2 / (π * Gamma (1 + 2 * p)) * (2 : ℝ) ^ p * beta (1 / 2) (p + 1 / 2) = 1 / 2 := by
  have h1 := Gamma_pos_of_pos (by linarith : 0 < 1 + p)
  have h2 := Gamma_pos_of_pos (by linarith : 0 < 1 + 2 * p)
  have hd := Gamma_mul_Gamma_add_half (p + 1 / 2)
  rw [show p + 1 / 2 + 1 / 2 = 1 + p by ring, show 2 * (p + 1 / 2) = 1 + 2 * p by ring,
    show 1 - (1 + 2 * p) = -(2 * p) by ring] at hd
  unfold beta
  rw [Gamma_one_half_eq, show 1 / 2 + (p + 1 / 2) = 1 + p by ring]
  have e : (2 : ℝ) ^ (-1 + p) * (2 : ℝ) ^ p * (2 : ℝ) ^ (-(2 * p)) = 1 / 2 := by
    rw [← rpow_add two_pos, ← rpow_add two_pos, show -1 + p + p + -(2 * p) = -1 by ring, rpow_neg_one]
    norm_num
  have hs : √π * √π = π := mul_self_sqrt pi_pos.le
  have hpi := pi_pos
  calc _ = (2 : ℝ) ^ (-1 + p) * (2 : ℝ) ^ p * √π * (Gamma (p + 1 / 2) * Gamma (1 + p)) / (π * Gamma (1 + 2 * p)) := by
        field_simp
    _ = (2 : ℝ) ^ (-1 + p) * (2 : ℝ) ^ p * (2 : ℝ) ^ (-(2 * p)) * (√π * √π) * Gamma (1 + 2 * p) / (π * Gamma (1 + 2 * p)) := by
        rw [hd]; ring
    _ = 1 / 2 := by rw [e, hs]; field_simp

lemma cwHalf_eq {zeta : ℝ} (hz : 0 < zeta) : cwHalf zeta = 1 / 2 := by
  unfold cwHalf
  rw [show 2 / zeta = 2 * (1 / zeta) by ring, cwHalf_raw (by positivity : 0 < 1 / zeta)]
  apply max_eq_left
  unfold floatTiny
  apply one_div_le_one_div_of_le two_pos
  calc (2 : ℝ) = 2 ^ 1 := (pow_one _).symm
    _ ≤ 2 ^ 1022 := pow_le_pow_right₀ (by norm_num) (by norm_num)

lemma half_mem {t : ℝ} (h : t ∈ Set.Ioo 0 π) : 0 < sin (1 / 2 * t) ∧ 0 < cos (1 / 2 * t) ∧ sin (1 / 2 * t) < 1 := by
  have hs : 0 < sin (1 / 2 * t) := sin_pos_of_pos_of_lt_pi (by linarith [h.1]) (by linarith [h.2, pi_pos])
  have hc : 0 < cos (1 / 2 * t) := cos_pos_of_mem_Ioo ⟨by linarith [h.1, pi_pos], by linarith [h.2]⟩
  refine ⟨hs, hc, ?_⟩
  have := sin_sq_add_cos_sq (1 / 2 * t)
  nlinarith

lemma cwAngle_eq {t : ℝ} (h0 : 0 ≤ t) (h1 : t ≤ π) : 2 * arcsin √(sin (1 / 2 * t) ^ 2) = t := by
  have hs : 0 ≤ sin (1 / 2 * t) := sin_nonneg_of_nonneg_of_le_pi (by linarith) (by linarith [pi_pos])
  rw [sqrt_sq hs, arcsin_sin (by linarith [pi_pos]) (by linarith)]
  ring

lemma cwImage (B S : Set ℝ) (h : ∀ t ∈ Set.Ioo 0 π, (sin (1 / 2 * t) ^ 2 ∈ B ↔ t ∈ S)) :
    (fun t => sin (1 / 2 * t) ^ 2) '' (S ∩ Set.Ioo 0 π) = B ∩ Set.Ioo 0 1 := by
  ext y
  constructor
  · rintro ⟨t, ⟨hS, ht⟩, rfl⟩
    obtain ⟨a, b, c⟩ := half_mem ht
    exact ⟨(h t ht).mpr hS, by positivity, by show sin (1 / 2 * t) ^ 2 < 1; nlinarith⟩
  · rintro ⟨hB, hy0, hy1⟩
    have hq0 : 0 < √y := sqrt_pos.mpr hy0
    have hq1 : √y < 1 := by rw [sqrt_lt' one_pos]; simpa using hy1
    have e : sin (1 / 2 * (2 * arcsin √y)) ^ 2 = y := by
      rw [show 1 / 2 * (2 * arcsin √y) = arcsin √y by ring, sin_arcsin (by linarith) hq1.le, sq_sqrt hy0.le]
    have ht : 2 * arcsin √y ∈ Set.Ioo 0 π := by
      refine ⟨by have := arcsin_pos.mpr hq0; linarith, ?_⟩
      have := arcsin_lt_pi_div_two.mpr hq1
      linarith
    exact ⟨2 * arcsin √y, ⟨(h _ ht).mp (by rw [e]; exact hB), ht⟩, e⟩

lemma cwG_beta {p t : ℝ} (hp : 0 < p) (ht : t ∈ Set.Ioo 0 π) :
    |sin (1 / 2 * t) * cos (1 / 2 * t)| * betaPDFReal (1 / 2) (p + 1 / 2) (sin (1 / 2 * t) ^ 2) = 2 * cwG p t := by
  obtain ⟨a, b, c⟩ := half_mem ht
  have hb := beta_pos (by norm_num : (0 : ℝ) < 1 / 2) (by linarith : 0 < p + 1 / 2)
  have hh := cwHalf_raw hp
  have hcos : 1 + cos t = 2 * cos (1 / 2 * t) ^ 2 := by
    have := cos_sq (1 / 2 * t)
    rw [show 2 * (1 / 2 * t) = t by ring] at this
    linarith
  have hone : 1 - sin (1 / 2 * t) ^ 2 = cos (1 / 2 * t) ^ 2 := by linarith [sin_sq_add_cos_sq (1 / 2 * t)]
  unfold betaPDFReal cwG
  rw [if_pos ⟨by positivity, by nlinarith⟩, hone, hcos, mul_rpow two_pos.le (by positivity),
    abs_of_pos (mul_pos a b)]
  have e1 : (sin (1 / 2 * t) ^ 2) ^ ((1 : ℝ) / 2 - 1) = (sin (1 / 2 * t))⁻¹ := by
    rw [← rpow_natCast, ← rpow_mul a.le, ← rpow_neg_one]; norm_num
  have e2 : cos (1 / 2 * t) * (cos (1 / 2 * t) ^ 2) ^ (p + 1 / 2 - 1) = (cos (1 / 2 * t) ^ 2) ^ p := by
    have : (cos (1 / 2 * t) ^ 2) ^ ((1 : ℝ) / 2) = cos (1 / 2 * t) := by
      rw [← rpow_natCast, ← rpow_mul b.le]; norm_num
    calc cos (1 / 2 * t) * (cos (1 / 2 * t) ^ 2) ^ (p + 1 / 2 - 1)
        = (cos (1 / 2 * t) ^ 2) ^ ((1 : ℝ) / 2) * (cos (1 / 2 * t) ^ 2) ^ (p + 1 / 2 - 1) := by rw [this]
      _ = (cos (1 / 2 * t) ^ 2) ^ p := by
        rw [← rpow_add (by positivity)]
        congr 1; ring
  rw [e1]
  have hcancel : sin (1 / 2 * t) * (sin (1 / 2 * t))⁻¹ = 1 := mul_inv_cancel₀ a.ne'
  have hK : (2 : ℝ) ^ (-1 + p) * Gamma (1 + p) ^ 2 / (π * Gamma (1 + 2 * p)) * (2 : ℝ) ^ p
      = 1 / 2 / beta (1 / 2) (p + 1 / 2) := by
    rw [eq_div_iff hb.ne']; exact hh
  calc _ = 1 / beta (1 / 2) (p + 1 / 2) * (cos (1 / 2 * t) * (cos (1 / 2 * t) ^ 2) ^ (p + 1 / 2 - 1))
        * (sin (1 / 2 * t) * (sin (1 / 2 * t))⁻¹) := by ring
    _ = 2 * (((2 : ℝ) ^ (-1 + p) * Gamma (1 + p) ^ 2 / (π * Gamma (1 + 2 * p)) * (2 : ℝ) ^ p)
        * (cos (1 / 2 * t) ^ 2) ^ p) := by rw [e2, hK, hcancel]; ring
    _ = _ := by ring

/-- The beta distribution seen through `T = sin²(φ/2)` has density twice the kernel on `(0, π)`. -/
lemma cwMeasure {p : ℝ} (hp : 0 < p) (B S : Set ℝ) (hB : MeasurableSet B) (hS : MeasurableSet S)
    (h : ∀ t ∈ Set.Ioo 0 π, (sin (1 / 2 * t) ^ 2 ∈ B ↔ t ∈ S)) :
    betaMeasure (1 / 2) (p + 1 / 2) B = ∫⁻ t in S ∩ Set.Ioo 0 π, ENNReal.ofReal (2 * cwG p t) := by
  unfold betaMeasure
  rw [withDensity_apply _ hB]
  have hsupp : ∫⁻ x in B, betaPDF (1 / 2) (p + 1 / 2) x = ∫⁻ x in B ∩ Set.Ioo 0 1, betaPDF (1 / 2) (p + 1 / 2) x := by
    have hf : betaPDF (1 / 2) (p + 1 / 2) = (Set.Ioo (0 : ℝ) 1).indicator (betaPDF (1 / 2) (p + 1 / 2)) := by
      funext x
      by_cases hx : x ∈ Set.Ioo (0 : ℝ) 1
      · rw [Set.indicator_of_mem hx]
      · rw [Set.indicator_of_notMem hx]
        unfold betaPDF betaPDFReal
        rw [if_neg (show ¬ (0 < x ∧ x < 1) from hx), ENNReal.ofReal_zero]
    conv_lhs => rw [hf]
    rw [lintegral_indicator measurableSet_Ioo, Measure.restrict_restrict measurableSet_Ioo, Set.inter_comm]
  rw [hsupp, ← cwImage B S h, lintegral_image_eq_lintegral_abs_deriv_mul (hS.inter measurableSet_Ioo)
    (f' := fun t => sin (1 / 2 * t) * cos (1 / 2 * t))]
  · refine setLIntegral_congr_fun (hS.inter measurableSet_Ioo) fun t ht => ?_
    show ENNReal.ofReal _ * betaPDF _ _ _ = _
    unfold betaPDF
    rw [← ENNReal.ofReal_mul (abs_nonneg _), cwG_beta hp ht.2]
  · intro t _
    have h1 : HasDerivAt (fun t : ℝ => 1 / 2 * t) (1 / 2) t := by simpa using (hasDerivAt_id t).const_mul (1 / 2 : ℝ)
    refine ((h1.sin.pow 2).congr_deriv ?_).hasDerivWithinAt
    norm_num
    ring
  · intro s hs t ht hst
    have h1 := cwAngle_eq hs.2.1.le hs.2.2.le
    have h2 := cwAngle_eq ht.2.1.le ht.2.2.le
    have hst' : sin (1 / 2 * s) ^ 2 = sin (1 / 2 * t) ^ 2 := hst
    rw [← h1, ← h2, hst']

lemma cw_setLIntegral {p : ℝ} (hp : 0 < p) {a b : ℝ} (hab : a ≤ b) :
    ∫⁻ t in Set.Ioc a b, ENNReal.ofReal (2 * cwG p t) = ENNReal.ofReal (2 * ∫ t in a..b, cwG p t) := by
  rw [← intervalIntegral.integral_const_mul, intervalIntegral.integral_of_le hab,
    ofReal_integral_eq_lintegral_ofReal]
  · exact ((continuous_const.mul (cwG_continuous hp)).integrableOn_Icc (a := a) (b := b)).mono_set Set.Ioc_subset_Icc_self
  · exact Filter.Eventually.of_forall fun t => mul_nonneg two_pos.le (cwG_nonneg hp t)

lemma betainc_sin {p φ : ℝ} (hp : 0 < p) (h0 : 0 ≤ φ) (h1 : φ ≤ π) :
    betainc (1 / 2) (p + 1 / 2) (sin (1 / 2 * φ) ^ 2) = 2 * ∫ t in (0 : ℝ)..φ, cwG p t := by
  unfold betainc
  have hpos : 0 ≤ ∫ t in (0 : ℝ)..φ, cwG p t :=
    intervalIntegral.integral_nonneg h0 fun t _ => cwG_nonneg hp t
  have hsφ : 0 ≤ sin (1 / 2 * φ) := sin_nonneg_of_nonneg_of_le_pi (by linarith) (by linarith [pi_pos])
  rw [measureReal_def, cwMeasure hp (Set.Iic (sin (1 / 2 * φ) ^ 2)) (Set.Iic φ) measurableSet_Iic measurableSet_Iic]
  · have hset : (Set.Iic φ ∩ Set.Ioo 0 π : Set ℝ) =ᵐ[volume] Set.Ioc 0 φ := by
      rcases h1.eq_or_lt with h | h
      · subst h
        have : (Set.Iic π ∩ Set.Ioo 0 π : Set ℝ) = Set.Ioo 0 π := by
          ext t; simp only [Set.mem_inter_iff, Set.mem_Iic, Set.mem_Ioo]; constructor
          · exact fun h => h.2
          · exact fun h => ⟨h.2.le, h⟩
        rw [this]; exact Ioo_ae_eq_Ioc
      · have : (Set.Iic φ ∩ Set.Ioo 0 π : Set ℝ) = Set.Ioc 0 φ := by
          ext t; simp only [Set.mem_inter_iff, Set.mem_Iic, Set.mem_Ioo, Set.mem_Ioc]; constructor
          · exact fun h => ⟨h.2.1, h.1⟩
          · exact fun h' => ⟨h'.2, h'.1, by linarith⟩
        rw [this]
        exact Filter.EventuallyEq.refl _ _
    rw [Measure.restrict_congr_set hset, cw_setLIntegral hp h0, ENNReal.toReal_ofReal (by positivity)]
  · intro t ht
    obtain ⟨a, b, c⟩ := half_mem ht
    simp only [Set.mem_Iic]
    rw [sq_le_sq₀ a.le hsφ]
    constructor
    · intro h
      by_contra hc
      push Not at hc
      have := sin_lt_sin_of_lt_of_le_pi_div_two (by linarith [pi_pos] : -(π / 2) ≤ 1 / 2 * φ)
        (by linarith [ht.2] : 1 / 2 * t ≤ π / 2) (by linarith)
      linarith
    · intro h
      exact sin_le_sin_of_le_of_le_pi_div_two (by linarith [pi_pos, ht.1]) (by linarith) (by linarith)

lemma cwG_half {p : ℝ} (hp : 0 < p) : ∫ t in (0 : ℝ)..π, cwG p t = 1 / 2 := by
  have h := betainc_sin hp pi_pos.le le_rfl
  rw [show 1 / 2 * π = π / 2 by ring, sin_pi_div_two, one_pow] at h
  have : betainc (1 / 2) (p + 1 / 2) 1 = 1 := by
    unfold betainc
    have := isProbabilityMeasureBeta (by norm_num : (0 : ℝ) < 1 / 2) (by linarith : 0 < p + 1 / 2)
    have hz : betaMeasure (1 / 2) (p + 1 / 2) (Set.Iic 1)ᶜ = 0 := by
      rw [cwMeasure hp (Set.Iic 1)ᶜ ∅ measurableSet_Iic.compl MeasurableSet.empty]
      · simp
      · intro t ht
        obtain ⟨a, b, c⟩ := half_mem ht
        simp only [Set.mem_compl_iff, Set.mem_Iic, Set.mem_empty_iff_false, iff_false, not_not]
        nlinarith
    rw [measureReal_def, (prob_compl_eq_zero_iff measurableSet_Iic).mp hz, ENNReal.toReal_one]
  linarith

lemma cwG_reflect {p : ℝ} (a b : ℝ) : ∫ t in a..b, cwG p t = ∫ t in (2 * π - b)..(2 * π - a), cwG p t := by
  rw [← intervalIntegral.integral_comp_sub_left (fun t => cwG p t) (2 * π)]
  refine intervalIntegral.integral_congr fun t _ => ?_
  show cwG p t = cwG p (2 * π - t)
  rw [show 2 * π - t = -t + 2 * π by ring, cwG_periodic p (-t), cwG_neg]

lemma cwG_mass {p : ℝ} (hp : 0 < p) : ∫ t in (0 : ℝ)..(2 * π), cwG p t = 1 := by
  have hi : ∀ a b, IntervalIntegrable (cwG p) volume a b := fun a b => (cwG_continuous hp).intervalIntegrable a b
  rw [← intervalIntegral.integral_add_adjacent_intervals (hi 0 π) (hi π (2 * π)), cwG_reflect π (2 * π),
    show 2 * π - 2 * π = 0 by ring, show 2 * π - π = π by ring, cwG_half hp]
  norm_num

lemma clip_sin_sq (t : ℝ) : clip (sin t ^ 2) 0 1 = sin t ^ 2 := by
  unfold clip
  rw [max_eq_left (sq_nonneg _), min_eq_left (sin_sq_le_one _)]

/-- The tabulated half-integrals are the integral of the kernel from 0. -/
lemma cwCumul_eq {zeta φ : ℝ} (hz : 0 < zeta) (h0 : 0 ≤ φ) (h1 : φ ≤ 2 * π) :
    cwCumul zeta φ = ∫ t in (0 : ℝ)..φ, cwG (1 / zeta) t := by
  have hp : 0 < 1 / zeta := by positivity
  unfold cwCumul
  rw [cwHalf_eq hz, clip_sin_sq, clip_sin_sq]
  by_cases h : φ ≤ π
  · rw [if_pos h, betainc_sin hp h0 h]; ring
  · rw [if_neg h, betainc_sin hp (by linarith) (by linarith)]
    have hi : ∀ a b, IntervalIntegrable (cwG (1 / zeta)) volume a b :=
      fun a b => (cwG_continuous hp).intervalIntegrable a b
    have h2 := intervalIntegral.integral_add_adjacent_intervals (hi 0 φ) (hi φ (2 * π))
    have h3 := cwG_reflect (p := 1 / zeta) φ (2 * π)
    rw [show 2 * π - 2 * π = 0 by ring] at h3
    rw [cwG_mass hp, h3] at h2
    linarith

end Verif
