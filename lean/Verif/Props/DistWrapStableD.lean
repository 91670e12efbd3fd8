import Verif.Lemmas.WrapStableE

/-! # C102: samples of the wrapped stable distribution -/

set_option autoImplicit false

namespace Verif

open Verif.Spec Real MeasureTheory Set

lemma wsRvs_ok {s : WS} (hs : wsArgcheck s) (V W : ℝ) : wsRvs V W s = .ok (pymod (wsLinear V W s) (2 * π)) := by
  unfold wsRvs
  rw [if_neg (not_not.2 hs.2.1), if_neg (not_not.2 hs.2.2.1), if_neg (not_not.2 hs.2.2.2)]

lemma cos_nat_pymod (k : ℕ) (y : ℝ) : cos (k * pymod y (2 * π)) = cos (k * y) := by
  obtain ⟨j, hj⟩ := pymod_form y
  rw [hj, show (k : ℝ) * (y + j * (2 * π)) = k * y + ((k * j : ℤ) : ℝ) * (2 * π) by push_cast; ring, cos_add_int_mul_two_pi]

lemma sin_nat_pymod (k : ℕ) (y : ℝ) : sin (k * pymod y (2 * π)) = sin (k * y) := by
  obtain ⟨j, hj⟩ := pymod_form y
  rw [hj, show (k : ℝ) * (y + j * (2 * π)) = k * y + ((k * j : ℤ) : ℝ) * (2 * π) by push_cast; ring, sin_add_int_mul_two_pi]

/-- From the moments of the centred sample to those of the sample. -/
lemma drawMean_shift {f : ℝ → ℝ → ℝ} (hm : Measurable fun p : ℝ × ℝ => f p.1 p.2) (d : ℝ) {a b : ℝ}
    (hc : drawMean (fun V W => cos (f V W)) = a) (hs : drawMean (fun V W => sin (f V W)) = b) :
    drawMean (fun V W => cos (d + f V W)) = cos d * a - sin d * b ∧
      drawMean (fun V W => sin (d + f V W)) = sin d * a + cos d * b := by
  have hpi := pi_pos
  have h1 : IntegrableOn (fun _ : ℝ => (1 : ℝ)) (Ioo (-(π / 2)) (π / 2)) := integrableOn_const (by simp)
  have h2 : IntegrableOn (fun W : ℝ => exp (-W)) (Ioi 0) := integrableOn_exp_neg_Ioi 0
  have hint : ∀ g : ℝ → ℝ → ℝ, (Measurable fun p : ℝ × ℝ => g p.1 p.2) → (∀ V W, |g V W| ≤ 1) →
      Integrable (fun p : ℝ × ℝ => exp (-p.2) * g p.1 p.2) (volume.restrict (Ioo (-(π / 2)) (π / 2) ×ˢ Ioi (0 : ℝ))) := by
    intro g hg hb
    rw [draw_measure]
    refine (h1.mul_prod h2).mono (Measurable.aestronglyMeasurable (by fun_prop)) (Filter.Eventually.of_forall fun p => ?_)
    rw [one_mul, norm_mul]
    have : ‖g p.1 p.2‖ ≤ 1 := hb _ _
    have hn := norm_nonneg (exp (-p.2))
    nlinarith
  have ic := hint (fun V W => cos (f V W)) (by fun_prop) fun _ _ => abs_cos_le_one _
  have is := hint (fun V W => sin (f V W)) (by fun_prop) fun _ _ => abs_sin_le_one _
  have lin : ∀ u v : ℝ, drawMean (fun V W => u * cos (f V W) + v * sin (f V W)) = u * a + v * b := by
    intro u v
    rw [← hc, ← hs]
    unfold drawMean
    rw [show (fun p : ℝ × ℝ => exp (-p.2) * (u * cos (f p.1 p.2) + v * sin (f p.1 p.2)))
      = fun p : ℝ × ℝ => u * (exp (-p.2) * cos (f p.1 p.2)) + v * (exp (-p.2) * sin (f p.1 p.2)) from funext fun p => by ring,
      integral_add (ic.const_mul u) (is.const_mul v), integral_const_mul, integral_const_mul]
    ring
  constructor
  · rw [show (fun V W => cos (d + f V W)) = fun V W => cos d * cos (f V W) + (-sin d) * sin (f V W) from
      funext fun V => funext fun W => by rw [cos_add]; ring, lin]
    ring
  · rw [show (fun V W => sin (d + f V W)) = fun V W => sin d * cos (f V W) + cos d * sin (f V W) from
      funext fun V => funext fun W => by rw [sin_add], lin]

/-! ## Symmetric cases -/

/-- **C102.** Wrapped stable distribution with `alpha = 1`, `beta = 0`: every trigonometric moment of the sample is the one of
the stable law. -/
theorem C102_wrapstable_cauchy {s : WS} (hs : wsArgcheck s) (ha : s.alpha = 1) (hb : s.beta = 0) :
    ∃ sample : ℝ → ℝ → ℝ, (∀ V W, wsRvs V W s = .ok (sample V W) ∧ 0 ≤ sample V W ∧ sample V W < 2 * π) ∧
      ∀ k : ℕ, drawMean (fun V W => cos (k * sample V W))
          = stableLength s.alpha s.gamma k * cos (stablePhase s.delta s.alpha s.beta s.gamma k) ∧
        drawMean (fun V W => sin (k * sample V W))
          = stableLength s.alpha s.gamma k * sin (stablePhase s.delta s.alpha s.beta s.gamma k) := by
  have hpi := pi_pos
  refine ⟨fun V W => pymod (wsLinear V W s) (2 * π), fun V W => ⟨wsRvs_ok hs V W, pymod_nonneg two_pi_pos _, pymod_lt two_pi_pos _⟩,
    fun k => ?_⟩
  simp only [cos_nat_pymod, sin_nat_pymod]
  have hlin : ∀ V W, (k : ℝ) * wsLinear V W s = k * s.delta + k * s.gamma * tan V := by
    intro V W
    unfold wsLinear
    rw [if_neg (by rw [ha]; norm_num)]
    simp only [hb, zero_mul, mul_zero, add_zero, sub_zero, sub_self]
    rw [show s.gamma * (2 / π) * (1 / 2 * π * tan V) = s.gamma * tan V * (π / π) by ring, div_self hpi.ne']
    ring
  simp only [hlin]
  have hk : 0 ≤ k * s.gamma := mul_nonneg (Nat.cast_nonneg k) hs.2.2.2.le
  have hchar := cauchy_char hk
  have hmt : Measurable tan := by
    rw [show tan = fun x => sin x / cos x from funext tan_eq_sin_div_cos]
    fun_prop
  have hii : IntervalIntegrable (fun V : ℝ => Complex.exp (Complex.I * (k * s.gamma * tan V : ℝ))) volume (-(π / 2)) (π / 2) := by
    refine IntervalIntegrable.mono_fun (intervalIntegrable_const (c := (1 : ℝ))) (Measurable.aestronglyMeasurable (by fun_prop))
      (Filter.Eventually.of_forall fun V => ?_)
    show ‖Complex.exp (Complex.I * (k * s.gamma * tan V : ℝ))‖ ≤ ‖(1 : ℝ)‖
    rw [mul_comm, Complex.norm_exp_ofReal_mul_I, norm_one]
  have hc0 : ∫ V in (-(π / 2))..(π / 2), cos (k * s.gamma * tan V) = π * exp (-(k * s.gamma)) := by
    have h := congrArg Complex.re hchar
    rw [← Complex.reCLM_apply, ← ContinuousLinearMap.intervalIntegral_comp_comm _ hii] at h
    simp only [Complex.reCLM_apply, mul_comm Complex.I, Complex.exp_ofReal_mul_I_re] at h
    rw [h, ← Complex.ofReal_mul, Complex.ofReal_re]
  have hs0 : ∫ V in (-(π / 2))..(π / 2), sin (k * s.gamma * tan V) = 0 := by
    have h := congrArg Complex.im hchar
    rw [← Complex.imCLM_apply, ← ContinuousLinearMap.intervalIntegral_comp_comm _ hii] at h
    simp only [Complex.imCLM_apply, mul_comm Complex.I, Complex.exp_ofReal_mul_I_im] at h
    rw [h, ← Complex.ofReal_mul, Complex.ofReal_im]
  have e1 : drawMean (fun V _ => cos (k * s.gamma * tan V)) = exp (-(k * s.gamma)) := by
    rw [drawMean_V (f := fun V => cos (k * s.gamma * tan V)) (by fun_prop) fun V => abs_cos_le_one _, hc0]
    field_simp
  have e2 : drawMean (fun V _ => sin (k * s.gamma * tan V)) = 0 := by
    rw [drawMean_V (f := fun V => sin (k * s.gamma * tan V)) (by fun_prop) fun V => abs_sin_le_one _, hs0, mul_zero]
  obtain ⟨r1, r2⟩ := drawMean_shift (f := fun V _ => k * s.gamma * tan V) (by fun_prop) (k * s.delta) e1 e2
  rw [r1, r2]
  unfold stableLength stablePhase
  rw [if_pos ha, ha, hb, rpow_one, mul_comm s.gamma (k : ℝ), mul_comm s.delta (k : ℝ)]
  constructor <;> ring_nf

/-- **C102.** Wrapped stable distribution with `alpha = 2`: every trigonometric moment of the sample is the one of the stable
(normal) law. -/
theorem C102_wrapstable_normal {s : WS} (hs : wsArgcheck s) (ha : s.alpha = 2) :
    ∃ sample : ℝ → ℝ → ℝ, (∀ V W, wsRvs V W s = .ok (sample V W) ∧ 0 ≤ sample V W ∧ sample V W < 2 * π) ∧
      ∀ k : ℕ, drawMean (fun V W => cos (k * sample V W))
          = stableLength s.alpha s.gamma k * cos (stablePhase s.delta s.alpha s.beta s.gamma k) ∧
        drawMean (fun V W => sin (k * sample V W))
          = stableLength s.alpha s.gamma k * sin (stablePhase s.delta s.alpha s.beta s.gamma k) := by
  have hpi := pi_pos
  refine ⟨fun V W => pymod (wsLinear V W s) (2 * π), fun V W => ⟨wsRvs_ok hs V W, pymod_nonneg two_pi_pos _, pymod_lt two_pi_pos _⟩,
    fun k => ?_⟩
  simp only [cos_nat_pymod, sin_nat_pymod]
  have htan : tan (1 / 2 * π * s.alpha) = 0 := by rw [ha, show 1 / 2 * π * 2 = π by ring, tan_pi]
  have hlin : ∀ p ∈ Ioo (-(π / 2)) (π / 2) ×ˢ Ioi (0 : ℝ),
      (k : ℝ) * wsLinear p.1 p.2 s = k * s.delta + 2 * k * s.gamma * (sin p.1 * √p.2) := by
    rintro ⟨V, W⟩ ⟨hV, hW⟩
    have hW : 0 < W := hW
    have hcV : 0 < cos V := cos_pos_of_mem_Ioo hV
    simp only
    rw [wsLinear_eq (by rw [ha]; norm_num) (by rw [ha]; norm_num), htan, mul_zero]
    unfold wsZ
    rw [ha]
    simp only [arctan_zero, add_zero, sub_zero]
    rw [show V - 2 * V = -V by ring, cos_neg, sin_two_mul, show ((1 : ℝ) - 2) / 2 = -(1 / 2) by norm_num, rpow_neg (by positivity),
      ← sqrt_eq_rpow, ← sqrt_eq_rpow, sqrt_div hcV.le, inv_div]
    have hsq : √(cos V) * √(cos V) = cos V := mul_self_sqrt hcV.le
    have hne : √(cos V) ≠ 0 := (sqrt_pos.2 hcV).ne'
    have h1 : ((1 : ℝ) + 0 ^ 2) ^ (1 / (2 * 2) : ℝ) = 1 := by norm_num
    rw [h1]
    field_simp
    rw [sq, hsq]
    ring
  have hms : MeasurableSet (Ioo (-(π / 2)) (π / 2) ×ˢ Ioi (0 : ℝ)) := measurableSet_Ioo.prod measurableSet_Ioi
  have hcongr : ∀ g : ℝ → ℝ, drawMean (fun V W => g (k * wsLinear V W s))
      = drawMean (fun V W => g (k * s.delta + 2 * k * s.gamma * (sin V * √W))) := by
    intro g
    unfold drawMean
    congr 1
    refine setIntegral_congr_fun hms fun p hp => ?_
    simp only [hlin p hp]
  rw [hcongr cos, hcongr sin]
  have e1 : drawMean (fun V W => cos (2 * k * s.gamma * (sin V * √W))) = exp (-((2 * k * s.gamma) ^ 2 / 4)) := by
    rw [drawMean_iter (by fun_prop) fun _ _ => abs_cos_le_one _]
    simp only [radial_exp]
    rw [radial_half]
    field_simp
  have e2 : drawMean (fun V W => sin (2 * k * s.gamma * (sin V * √W))) = 0 := by
    rw [drawMean_iter (by fun_prop) fun _ _ => abs_sin_le_one _]
    have hodd : ∀ V : ℝ, (∫ W in Ioi (0 : ℝ), exp (-W) * sin (2 * k * s.gamma * (sin (-V) * √W)))
        = -∫ W in Ioi (0 : ℝ), exp (-W) * sin (2 * k * s.gamma * (sin V * √W)) := by
      intro V
      rw [← integral_neg]
      refine integral_congr_ae (Filter.Eventually.of_forall fun W => ?_)
      simp only [sin_neg, neg_mul, mul_neg]
    have h := intervalIntegral.integral_comp_neg (a := -(π / 2)) (b := π / 2)
      (fun V => ∫ W in Ioi (0 : ℝ), exp (-W) * sin (2 * k * s.gamma * (sin V * √W)))
    rw [neg_neg] at h
    simp only [hodd] at h
    rw [intervalIntegral.integral_neg] at h
    have : ∫ V in (-(π / 2))..(π / 2), ∫ W in Ioi (0 : ℝ), exp (-W) * sin (2 * k * s.gamma * (sin V * √W)) = 0 := by linarith
    rw [this, mul_zero]
  obtain ⟨r1, r2⟩ := drawMean_shift (f := fun V W => 2 * k * s.gamma * (sin V * √W)) (by fun_prop) (k * s.delta) e1 e2
  rw [r1, r2]
  unfold stableLength stablePhase
  rw [if_neg (by rw [ha]; norm_num), ha, show π * 2 / 2 = π by ring, tan_pi, rpow_two]
  constructor <;> ring_nf

/-! ## The skewed case -/

/-- **C102 (negative).** For `1 < alpha < 2` and `beta ≠ 0` samples do not follow `pdf`: they come from a distribution shifted by
`gamma beta tan(π alpha / 2)`. For all small `gamma` the mean sine about `delta` of the samples and that of the density
differ by at least half of that shift. -/
theorem C102_wrapstable_shift {delta alpha beta : ℝ} (hd : 0 ≤ delta ∧ delta ≤ 2 * π) (ha0 : 1 + 1 / 10 ^ 10 < alpha) (ha1 : alpha < 2)
    (hb : -1 < beta ∧ beta < 1) (hb0 : beta ≠ 0) :
    ∃ gamma0 > 0, ∀ gamma, 0 < gamma → gamma < gamma0 →
      ∃ (g : ℝ → ℝ) (sample : ℝ → ℝ → ℝ), (∀ x, RegularAngle x → distPdf wrapstable x ⟨delta, alpha, beta, gamma⟩ = some (g x)) ∧
        (∀ V W, wsRvs V W ⟨delta, alpha, beta, gamma⟩ = .ok (sample V W)) ∧
        |beta * tan (π * alpha / 2)| / 2 * gamma
          ≤ |drawMean (fun V W => sin (sample V W - delta)) - ∫ x in (0 : ℝ)..(2 * π), sin (x - delta) * g x| := by
  have hpi := pi_pos
  have h1 : 1 < alpha := lt_trans (by norm_num) ha0
  obtain ⟨b, hbd⟩ : ∃ b, b = beta * tan (1 / 2 * π * alpha) := ⟨_, rfl⟩
  have htan : tan (π - 1 / 2 * π * alpha) = -tan (1 / 2 * π * alpha) := by rw [tan_pi_sub]
  have htpos : 0 < tan (π - 1 / 2 * π * alpha) := tan_pos_of_pos_of_lt_pi_div_two (by nlinarith) (by nlinarith)
  have habs : |b| < tan (π - 1 / 2 * π * alpha) := by
    have e : |tan (1 / 2 * π * alpha)| = tan (π - 1 / 2 * π * alpha) := by rw [← abs_neg, ← htan, abs_of_pos htpos]
    rw [hbd, abs_mul, e]
    have : |beta| < 1 := abs_lt.2 hb
    nlinarith
  have hat : |arctan b| < π - π / 2 * alpha := by
    have := ws_abs_arctan (b := b) (t := π - 1 / 2 * π * alpha) (by nlinarith) (by nlinarith) habs
    linarith
  have hbne : b ≠ 0 := by
    rw [hbd]
    refine mul_ne_zero hb0 fun h => ?_
    rw [htan, h] at htpos
    simp at htpos
  have hD : HasDerivAt (fun gamma : ℝ => exp (-(gamma ^ alpha)) * sin (b * (gamma ^ alpha - gamma))) (-b) 0 := by
    have hp : HasDerivAt (fun gamma : ℝ => gamma ^ alpha) 0 0 := by
      have := hasDerivAt_rpow_const (x := (0 : ℝ)) (p := alpha) (Or.inr h1.le)
      rwa [zero_rpow (by linarith), mul_zero] at this
    have hz : (0 : ℝ) ^ alpha = 0 := zero_rpow (by linarith)
    have h2 := hp.neg.exp.mul (((hp.sub (hasDerivAt_id (0 : ℝ))).const_mul b).sin)
    refine h2.congr_deriv ?_
    simp [hz]
  have hF := (wsZ_deriv h1 hat).sub hD
  obtain ⟨e, he, hlow⟩ := deriv_low hF (by simp [drawMean, zero_rpow (by linarith : alpha ≠ 0)]) (by simpa using hbne)
  refine ⟨e, he, fun gamma hg0 hg1 => ?_⟩
  have hs : wsArgcheck ⟨delta, alpha, beta, gamma⟩ := ⟨hd, ⟨by linarith, ha1.le⟩, hb, hg0⟩
  refine ⟨fun x => wsPdf x ⟨delta, alpha, beta, gamma⟩, fun V W => pymod (wsLinear V W ⟨delta, alpha, beta, gamma⟩) (2 * π),
    fun x hx => distPdf_regular wrapstable hs hx, wsRvs_ok hs, ?_⟩
  have ha' : 1 / 10 ^ 10 < |alpha - 1| := by rw [abs_of_pos (by linarith)]; linarith
  have e1 : ∀ V W, sin (pymod (wsLinear V W ⟨delta, alpha, beta, gamma⟩) (2 * π) - delta) = sin (gamma * wsZ alpha b (V, W)) := by
    intro V W
    obtain ⟨j, hj⟩ := pymod_form (wsLinear V W ⟨delta, alpha, beta, gamma⟩)
    rw [hj, wsLinear_eq (s := ⟨delta, alpha, beta, gamma⟩) ha' (by show alpha ≠ 0; linarith), ← hbd]
    simp only
    rw [show delta + gamma * wsZ alpha b (V, W) + j * (2 * π) - delta = gamma * wsZ alpha b (V, W) + j * (2 * π) by ring,
      sin_add_int_mul_two_pi]
  simp only [e1]
  have e2 := ws_first_sin hs
  have e3 : wsMu ⟨delta, alpha, beta, gamma⟩ 1 - delta = b * (gamma ^ alpha - gamma) := by
    unfold wsMu
    rw [if_neg (not_le.2 ha')]
    simp only [mul_one]
    rw [hbd]
    ring
  simp only at e2
  rw [e3] at e2
  rw [e2]
  have e4 : wsRho ⟨delta, alpha, beta, gamma⟩ 1 = exp (-(gamma ^ alpha)) := by
    unfold wsRho; simp only [mul_one]
  rw [e4]
  have := hlow gamma hg0 hg1
  rw [zero_sub, neg_neg] at this
  rw [show π * alpha / 2 = 1 / 2 * π * alpha by ring, ← hbd]
  exact this

end Verif
