import Verif.Props.DistWrapStable
import Mathlib.Analysis.SpecialFunctions.Gamma.Basic
import Mathlib.Analysis.SpecialFunctions.Integrability.Basic
import Mathlib.Analysis.Calculus.ParametricIntegral
import Mathlib.MeasureTheory.Integral.Prod
import Mathlib.MeasureTheory.Integral.IntervalIntegral.FundThmCalculus

/-! # Averages over the draws of the wrapped stable sampler -/

set_option autoImplicit false

namespace Verif

open Verif.Spec Real MeasureTheory Set

/-! ## The standardised sample for `1 < alpha < 2` -/

/-- The sample of the line for `delta = 0`, `gamma = 1`. -/
noncomputable def wsZ (alpha b : ℝ) (p : ℝ × ℝ) : ℝ :=
  (1 + b ^ 2) ^ (1 / (2 * alpha)) * (sin (alpha * p.1 + arctan b) / cos p.1 ^ (1 / alpha))
    * (cos (p.1 - alpha * p.1 - arctan b) / p.2) ^ ((1 - alpha) / alpha)

lemma wsLinear_eq {s : WS} (ha : 1 / 10 ^ 10 < |s.alpha - 1|) (ha0 : s.alpha ≠ 0) (V W : ℝ) :
    wsLinear V W s = s.delta + s.gamma * wsZ s.alpha (s.beta * tan (1 / 2 * π * s.alpha)) (V, W) := by
  unfold wsLinear wsZ
  rw [if_pos ha]
  simp only
  have e : s.alpha * (V + arctan (s.beta * tan (1 / 2 * π * s.alpha)) / s.alpha)
      = s.alpha * V + arctan (s.beta * tan (1 / 2 * π * s.alpha)) := by
    rw [mul_add, mul_div_cancel₀ _ ha0]
  rw [e, ← sub_sub V]
  ring

lemma ws_abs_arctan {b t : ℝ} (ht : t < π / 2) (ht0 : 0 < t) (h : |b| < tan t) : |arctan b| < t := by
  have e : arctan (tan t) = t := arctan_tan (by linarith) ht
  rw [abs_lt]
  constructor
  · have := arctan_strictMono (show -tan t < b by linarith [(abs_lt.1 h).1])
    rw [arctan_neg, e] at this
    exact this
  · have := arctan_strictMono (abs_lt.1 h).2
    rwa [e] at this

/-- The argument of the second cosine stays away from `±π/2`. -/
lemma ws_cos_low {alpha b : ℝ} (h1 : 1 < alpha) (hb : |arctan b| < π - π / 2 * alpha) :
    ∃ c > 0, ∀ V, |V| ≤ π / 2 → c ≤ cos (V - alpha * V - arctan b) := by
  have hpi := pi_pos
  refine ⟨cos ((alpha - 1) * (π / 2) + |arctan b|), cos_pos_of_mem_Ioo ⟨?_, ?_⟩, fun V hV => ?_⟩
  · have : 0 ≤ (alpha - 1) * (π / 2) := by apply mul_nonneg <;> linarith
    have := abs_nonneg (arctan b)
    linarith
  · nlinarith
  · rw [← cos_abs (V - alpha * V - arctan b)]
    have hle : |V - alpha * V - arctan b| ≤ (alpha - 1) * (π / 2) + |arctan b| := by
      have e : V - alpha * V - arctan b = -((alpha - 1) * V) - arctan b := by ring
      rw [e]
      refine (abs_sub _ _).trans ?_
      rw [abs_neg, abs_mul, abs_of_pos (by linarith : 0 < alpha - 1)]
      have := mul_le_mul_of_nonneg_left hV (by linarith : 0 ≤ alpha - 1)
      linarith
    refine cos_le_cos_of_nonneg_of_le_pi (abs_nonneg _) ?_ hle
    nlinarith

lemma ws_cos_int {r : ℝ} (h0 : 0 ≤ r) (h1 : r < 1) : IntegrableOn (fun V => cos V ^ (-r)) (Ioo (-(π / 2)) (π / 2)) := by
  have hpi := pi_pos
  have i1 : IntervalIntegrable (fun x : ℝ => x ^ (-r)) volume 0 π := intervalIntegral.intervalIntegrable_rpow' (by linarith)
  have i2 := i1.comp_sub_left (π / 2)
  have i3 := i1.comp_add_left (π / 2)
  rw [show π / 2 - 0 = π / 2 by ring, show π / 2 - π = -(π / 2) by ring] at i2
  rw [show 0 - π / 2 = -(π / 2) by ring, show π - π / 2 = π / 2 by ring] at i3
  have i4 := (((i2.symm).add i3).const_mul ((2 / π) ^ (-r)))
  rw [intervalIntegrable_iff_integrableOn_Ioo_of_le (by linarith)] at i4
  refine Integrable.mono' i4 (Measurable.aestronglyMeasurable (by fun_prop)) ?_
  refine (ae_restrict_iff' measurableSet_Ioo).2 (Filter.Eventually.of_forall fun V hV => ?_)
  have hc : 0 < cos V := cos_pos_of_mem_Ioo hV
  rw [norm_of_nonneg (rpow_nonneg hc.le _)]
  have p1 : 0 < π / 2 - V := by linarith [hV.2]
  have p2 : 0 < π / 2 + V := by linarith [hV.1]
  have q0 : 0 < 2 / π := by positivity
  have n1 := rpow_nonneg p1.le (-r)
  have n2 := rpow_nonneg p2.le (-r)
  have n0 := rpow_nonneg q0.le (-r)
  rcases le_total 0 V with hv | hv
  · have hcl : 2 / π * (π / 2 - V) ≤ cos V := by
      have := mul_le_sin (x := π / 2 - V) p1.le (by linarith)
      rwa [sin_pi_div_two_sub] at this
    calc cos V ^ (-r) ≤ (2 / π * (π / 2 - V)) ^ (-r) := rpow_le_rpow_of_nonpos (by positivity) hcl (by linarith)
      _ = (2 / π) ^ (-r) * (π / 2 - V) ^ (-r) := mul_rpow q0.le p1.le
      _ ≤ _ := by
        refine mul_le_mul_of_nonneg_left ?_ n0
        show _ ≤ (π / 2 - V) ^ (-r) + (π / 2 + V) ^ (-r)
        linarith
  · have hcl : 2 / π * (π / 2 + V) ≤ cos V := by
      have := mul_le_sin (x := π / 2 + V) p2.le (by linarith)
      rwa [show sin (π / 2 + V) = cos V by rw [add_comm, sin_add_pi_div_two]] at this
    calc cos V ^ (-r) ≤ (2 / π * (π / 2 + V)) ^ (-r) := rpow_le_rpow_of_nonpos (by positivity) hcl (by linarith)
      _ = (2 / π) ^ (-r) * (π / 2 + V) ^ (-r) := mul_rpow q0.le p2.le
      _ ≤ _ := by
        refine mul_le_mul_of_nonneg_left ?_ n0
        show _ ≤ (π / 2 - V) ^ (-r) + (π / 2 + V) ^ (-r)
        linarith

/-- The angular factor. -/
noncomputable def wsAng (alpha b V : ℝ) : ℝ :=
  sin (alpha * V + arctan b) / cos V ^ (1 / alpha) * cos (V - alpha * V - arctan b) ^ ((1 - alpha) / alpha)

lemma wsAng_int {alpha b : ℝ} (h1 : 1 < alpha) (hb : |arctan b| < π - π / 2 * alpha) :
    IntegrableOn (wsAng alpha b) (Ioo (-(π / 2)) (π / 2)) := by
  obtain ⟨c, hc0, hc⟩ := ws_cos_low h1 hb
  have hr0 : 0 ≤ 1 / alpha := by positivity
  have hr1 : 1 / alpha < 1 := by rw [div_lt_one (by linarith)]; exact h1
  refine Integrable.mono' ((ws_cos_int hr0 hr1).mul_const (c ^ ((1 - alpha) / alpha)))
    (Measurable.aestronglyMeasurable (by unfold wsAng; fun_prop)) ?_
  refine (ae_restrict_iff' measurableSet_Ioo).2 (Filter.Eventually.of_forall fun V hV => ?_)
  have hcV : 0 < cos V := cos_pos_of_mem_Ioo hV
  have hlow := hc V (abs_le.2 ⟨hV.1.le, hV.2.le⟩)
  have hC : 0 < cos (V - alpha * V - arctan b) := hc0.trans_le hlow
  have he : (1 - alpha) / alpha ≤ 0 := div_nonpos_of_nonpos_of_nonneg (by linarith) (by linarith)
  unfold wsAng
  rw [norm_mul, norm_div, norm_of_nonneg (rpow_nonneg hC.le _), norm_of_nonneg (rpow_nonneg hcV.le (1 / alpha)), rpow_neg hcV.le]
  refine mul_le_mul ?_ (rpow_le_rpow_of_nonpos hc0 hlow he) (rpow_nonneg hC.le _) (by positivity)
  rw [div_eq_mul_inv]
  have : ‖sin (alpha * V + arctan b)‖ ≤ 1 := abs_sin_le_one _
  have hp : 0 ≤ (cos V ^ (1 / alpha))⁻¹ := by positivity
  nlinarith

/-- The angular factor is a derivative, up to a constant. -/
lemma wsAng_zero {alpha b : ℝ} (h1 : 1 < alpha) (hb : |arctan b| < π - π / 2 * alpha) :
    ∫ V in Ioo (-(π / 2)) (π / 2), wsAng alpha b V = 0 := by
  have hpi := pi_pos
  obtain ⟨c, hc0, hc⟩ := ws_cos_low h1 hb
  obtain ⟨d, hd⟩ : ∃ d, d = (alpha - 1) / alpha := ⟨_, rfl⟩
  have ha0 : alpha ≠ 0 := by linarith
  have hd0 : 0 < d := by rw [hd]; exact div_pos (by linarith) (by linarith)
  have e1 : d - 1 = -(1 / alpha) := by rw [hd]; field_simp; ring
  have e2 : 1 / alpha - 1 = (1 - alpha) / alpha := by field_simp
  have hle : -(π / 2) ≤ π / 2 := by linarith
  have key := intervalIntegral.integral_eq_sub_of_hasDeriv_right_of_le (a := -(π / 2)) (b := π / 2) hle
    (f := fun V => cos V ^ d * cos (V - alpha * V - arctan b) ^ (1 / alpha)) (f' := fun V => -d * wsAng alpha b V) ?_ ?_ ?_
  · rw [intervalIntegral.integral_const_mul] at key
    simp only [cos_neg, cos_pi_div_two, zero_rpow hd0.ne', zero_mul, sub_self] at key
    rw [intervalIntegral.integral_of_le hle, integral_Ioc_eq_integral_Ioo] at key
    rcases mul_eq_zero.1 key with h | h
    · linarith
    · exact h
  · refine ContinuousOn.mul ?_ ?_
    · exact ContinuousOn.rpow_const (by fun_prop) fun V _ => Or.inr hd0.le
    · refine ContinuousOn.rpow_const (by fun_prop) fun V hV => Or.inl (hc0.trans_le (hc V (abs_le.2 hV))).ne'
  · intro V hV
    have hcV : 0 < cos V := cos_pos_of_mem_Ioo hV
    have hC : 0 < cos (V - alpha * V - arctan b) := hc0.trans_le (hc V (abs_le.2 ⟨hV.1.le, hV.2.le⟩))
    refine HasDerivAt.hasDerivWithinAt ?_
    have d1 : HasDerivAt (fun V => cos V ^ d) (-sin V * d * cos V ^ (d - 1)) V :=
      (hasDerivAt_cos V).rpow_const (Or.inl hcV.ne')
    have d0 : HasDerivAt (fun V => V - alpha * V - arctan b) (1 - alpha) V := by
      have := ((hasDerivAt_id V).sub ((hasDerivAt_id V).const_mul alpha)).sub_const (arctan b)
      simpa using this
    have d2 : HasDerivAt (fun V => cos (V - alpha * V - arctan b) ^ (1 / alpha))
        (-sin (V - alpha * V - arctan b) * (1 - alpha) * (1 / alpha) * cos (V - alpha * V - arctan b) ^ (1 / alpha - 1)) V :=
      (d0.cos).rpow_const (Or.inl hC.ne')
    refine (d1.mul d2).congr_deriv ?_
    have f1 : cos V ^ d = cos V * cos V ^ (d - 1) := by
      rw [rpow_sub_one hcV.ne', mul_div_cancel₀ _ hcV.ne']
    have f2 : cos (V - alpha * V - arctan b) ^ (1 / alpha)
        = cos (V - alpha * V - arctan b) * cos (V - alpha * V - arctan b) ^ (1 / alpha - 1) := by
      rw [rpow_sub_one hC.ne', mul_div_cancel₀ _ hC.ne']
    have f3 : sin (alpha * V + arctan b) = sin V * cos (V - alpha * V - arctan b) - cos V * sin (V - alpha * V - arctan b) := by
      rw [← sin_sub]; congr 1; ring
    unfold wsAng
    rw [f1, f2, f3, e1, ← e2, rpow_neg hcV.le]
    have hda : (1 - alpha) * (1 / alpha) = -d := by rw [hd]; field_simp; ring
    linear_combination (cos V * (cos V ^ (1 / alpha))⁻¹ * -sin (V - alpha * V - arctan b)
      * cos (V - alpha * V - arctan b) ^ (1 / alpha - 1)) * hda
  · rw [intervalIntegrable_iff_integrableOn_Ioo_of_le hle]
    exact (wsAng_int h1 hb).const_mul _


/-! ## Averages over both draws -/

lemma draw_measure : (volume : Measure (ℝ × ℝ)).restrict (Ioo (-(π / 2)) (π / 2) ×ˢ Ioi (0 : ℝ))
    = (volume.restrict (Ioo (-(π / 2)) (π / 2))).prod (volume.restrict (Ioi (0 : ℝ))) := by
  rw [Measure.volume_eq_prod, Measure.prod_restrict]

lemma wsZ_eq {alpha b : ℝ} (h1 : 1 < alpha) (hb : |arctan b| < π - π / 2 * alpha) {p : ℝ × ℝ}
    (hp : p ∈ Ioo (-(π / 2)) (π / 2) ×ˢ Ioi (0 : ℝ)) :
    exp (-p.2) * wsZ alpha b p = ((1 + b ^ 2) ^ (1 / (2 * alpha)) * wsAng alpha b p.1) * (exp (-p.2) * p.2 ^ ((alpha - 1) / alpha + 1 - 1)) := by
  obtain ⟨c, hc0, hc⟩ := ws_cos_low h1 hb
  obtain ⟨hV, hW⟩ := hp
  have hW : 0 < p.2 := hW
  have hC : 0 < cos (p.1 - alpha * p.1 - arctan b) := hc0.trans_le (hc p.1 (abs_le.2 ⟨hV.1.le, hV.2.le⟩))
  unfold wsZ wsAng
  rw [div_rpow hC.le hW.le, add_sub_cancel_right, show (alpha - 1) / alpha = -((1 - alpha) / alpha) by ring, rpow_neg hW.le]
  ring

lemma wsZ_measurable (alpha b : ℝ) : Measurable (wsZ alpha b) := by
  unfold wsZ
  fun_prop

lemma wsZ_int {alpha b : ℝ} (h1 : 1 < alpha) (hb : |arctan b| < π - π / 2 * alpha) :
    Integrable (fun p : ℝ × ℝ => exp (-p.2) * wsZ alpha b p)
      (volume.restrict (Ioo (-(π / 2)) (π / 2) ×ˢ Ioi (0 : ℝ))) := by
  have hd0 : 0 < (alpha - 1) / alpha + 1 := by
    have : 0 < (alpha - 1) / alpha := div_pos (by linarith) (by linarith)
    linarith
  have hms : MeasurableSet (Ioo (-(π / 2)) (π / 2) ×ˢ Ioi (0 : ℝ)) := measurableSet_Ioo.prod measurableSet_Ioi
  have h := ((wsAng_int h1 hb).const_mul ((1 + b ^ 2) ^ (1 / (2 * alpha)))).mul_prod (Real.GammaIntegral_convergent hd0)
  rw [← draw_measure] at h
  refine h.congr ?_
  refine (ae_restrict_iff' hms).2 (Filter.Eventually.of_forall fun p hp => ?_)
  exact (wsZ_eq h1 hb hp).symm

lemma wsZ_mean {alpha b : ℝ} (h1 : 1 < alpha) (hb : |arctan b| < π - π / 2 * alpha) :
    ∫ p in Ioo (-(π / 2)) (π / 2) ×ˢ Ioi (0 : ℝ), exp (-p.2) * wsZ alpha b p = 0 := by
  have hms : MeasurableSet (Ioo (-(π / 2)) (π / 2) ×ˢ Ioi (0 : ℝ)) := measurableSet_Ioo.prod measurableSet_Ioi
  rw [setIntegral_congr_fun hms fun p hp => wsZ_eq h1 hb hp, draw_measure,
    integral_prod_mul (fun V => (1 + b ^ 2) ^ (1 / (2 * alpha)) * wsAng alpha b V)
      (fun W => exp (-W) * W ^ ((alpha - 1) / alpha + 1 - 1)), integral_const_mul, wsAng_zero h1 hb, mul_zero, zero_mul]

/-- The mean sine of the centred sample is flat at `gamma = 0`. -/
lemma wsZ_deriv {alpha b : ℝ} (h1 : 1 < alpha) (hb : |arctan b| < π - π / 2 * alpha) :
    HasDerivAt (fun gamma => drawMean fun V W => sin (gamma * wsZ alpha b (V, W))) 0 0 := by
  have hz := wsZ_measurable alpha b
  have key := hasDerivAt_integral_of_dominated_loc_of_deriv_le
    (μ := volume.restrict (Ioo (-(π / 2)) (π / 2) ×ˢ Ioi (0 : ℝ))) (s := Set.univ)
    (F := fun gamma (p : ℝ × ℝ) => exp (-p.2) * sin (gamma * wsZ alpha b p))
    (F' := fun gamma (p : ℝ × ℝ) => exp (-p.2) * (cos (gamma * wsZ alpha b p) * wsZ alpha b p)) (x₀ := (0 : ℝ))
    (bound := fun p => ‖exp (-p.2) * wsZ alpha b p‖) Filter.univ_mem ?_ ?_ ?_ ?_ ?_ ?_
  · have h := (key.2.const_mul (1 / π))
    simp only [zero_mul, cos_zero, one_mul, wsZ_mean h1 hb, mul_zero] at h
    exact h
  · exact Filter.Eventually.of_forall fun gamma => Measurable.aestronglyMeasurable (by fun_prop)
  · simp only [zero_mul, sin_zero, mul_zero]
    exact integrable_zero _ _ _
  · exact Measurable.aestronglyMeasurable (by fun_prop)
  · refine Filter.Eventually.of_forall fun p gamma _ => ?_
    rw [norm_mul, norm_mul, norm_mul]
    refine mul_le_mul_of_nonneg_left ?_ (norm_nonneg _)
    have : ‖cos (gamma * wsZ alpha b p)‖ ≤ 1 := abs_cos_le_one _
    have := mul_le_mul_of_nonneg_right this (norm_nonneg (wsZ alpha b p))
    linarith
  · exact (wsZ_int h1 hb).norm
  · refine Filter.Eventually.of_forall fun p gamma _ => ?_
    have := (((hasDerivAt_id gamma).mul_const (wsZ alpha b p)).sin).const_mul (exp (-p.2))
    simpa using this

/-- A function with slope `c` at a zero at 0 is at least half as steep nearby. -/
lemma deriv_low {f : ℝ → ℝ} {c : ℝ} (hf : HasDerivAt f c 0) (h0 : f 0 = 0) (hc : c ≠ 0) :
    ∃ e > 0, ∀ x, 0 < x → x < e → |c| / 2 * x ≤ |f x| := by
  have h := (hasDerivAt_iff_isLittleO.1 hf).def (c := |c| / 2) (by positivity)
  obtain ⟨e, he, h⟩ := Metric.eventually_nhds_iff.1 h
  refine ⟨e, he, fun x hx hxe => ?_⟩
  have h := h (y := x) (by rw [Real.dist_eq, sub_zero, abs_of_pos hx]; exact hxe)
  rw [h0, sub_zero, sub_zero, smul_eq_mul, Real.norm_eq_abs, Real.norm_eq_abs, abs_of_pos hx] at h
  have h2 : |x * c| ≤ |f x - x * c| + |f x| := by
    have := abs_sub_abs_le_abs_sub (x * c) (f x)
    rw [abs_sub_comm] at this
    linarith
  rw [abs_mul, abs_of_pos hx] at h2
  linarith

end Verif
