import Verif.Lemmas.Poisson
import Verif.Lemmas.Descriptive

/-! # Property C75: the wrapped Cauchy distribution -/

set_option autoImplicit false

namespace Verif

open Real Verif.Spec MeasureTheory

/-- **C75.** For every accepted `(mu, rho)` the wrapped Cauchy object has the published density, which
is positive and has total mass 1. -/
theorem C75_density {mu rho : ℝ} (hm0 : 0 ≤ mu) (hm1 : mu ≤ 2 * π) (h0 : 0 ≤ rho) (h1 : rho < 1) :
    IsCircularDensity (fun x => (1 - rho ^ 2) / (2 * π * (1 + rho ^ 2 - 2 * rho * cos (x - mu)))) ∧
    (∀ x : ℝ, 0 < (1 - rho ^ 2) / (2 * π * (1 + rho ^ 2 - 2 * rho * cos (x - mu)))) ∧
    (∀ x, RegularAngle x → distPdf wrapcauchy x (mu, rho)
      = some ((1 - rho ^ 2) / (2 * π * (1 + rho ^ 2 - 2 * rho * cos (x - mu))))) := by
  refine ⟨wc_isCircularDensity mu h0 h1, fun x => wcPdf_pos x mu h0 h1, ?_⟩
  intro x hx
  have hw : wrap2pi x = x := by
    obtain ⟨a, b | b⟩ := hx
    · exact wrap2pi_self a (by linarith [wrapTol_lt])
    · rw [b]; exact wrap2pi_two_pi
  have harg : wrapcauchy.argcheck (mu, rho) := ⟨⟨hm0, hm1⟩, h0, h1⟩
  have hmem := wrap2pi_mem x
  unfold distPdf
  rw [if_neg (not_not.mpr harg), if_pos hmem, hw]
  rfl

/-- **C75.** The first trigonometric moment is `ρ e^{iμ}`. -/
theorem C75_resultant {mu rho : ℝ} (h0 : 0 ≤ rho) (h1 : rho < 1) :
    distTrigMoment wrapcauchy 1 (mu, rho) = rho * Complex.exp (mu * Complex.I) ∧
    distR (distTrigMoment wrapcauchy 1 (mu, rho)) = rho := by
  have hpi := pi_pos
  have hcont := wcPdf_continuous mu h0 h1
  have hmass := (wc_isCircularDensity mu h0 h1).mass
  have hC : ∫ x in (0 : ℝ)..(2 * π), wcPdf x mu rho * cos (x - mu) = rho := by
    rcases h0.eq_or_lt with h | h
    · subst h
      have : ∀ x : ℝ, wcPdf x mu 0 * cos (x - mu) = 1 / (2 * π) * cos (x - mu) := by
        intro x; unfold wcPdf; simp
      simp only [this]
      rw [intervalIntegral.integral_const_mul,
        intervalIntegral.integral_comp_sub_right (fun x => cos x) mu, integral_cos]
      rw [show 2 * π - mu = 0 - mu + 2 * π by ring, sin_add_two_pi]; ring
    · have : ∀ x : ℝ, wcPdf x mu rho * cos (x - mu)
          = (1 + rho ^ 2) / (2 * rho) * wcPdf x mu rho - (1 - rho ^ 2) / (4 * π * rho) := by
        intro x
        unfold wcPdf
        have := (wc_kernel_pos h0 h1 (x - mu)).ne'
        generalize cos (x - mu) = c at *
        rw [div_mul_eq_mul_div, ← mul_div_assoc, div_sub_div _ _ (by positivity) (by positivity),
          div_eq_div_iff (by positivity) (by positivity)]
        field_simp
        ring
      simp only [this]
      rw [intervalIntegral.integral_sub ((hcont.const_mul _).intervalIntegrable _ _)
        intervalIntegrable_const, intervalIntegral.integral_const_mul, hmass,
        intervalIntegral.integral_const, smul_eq_mul]
      field_simp
      ring
  have hS : ∫ x in (0 : ℝ)..(2 * π), wcPdf x mu rho * sin (x - mu) = 0 := by
    rcases h0.eq_or_lt with h | h
    · subst h
      have : ∀ x : ℝ, wcPdf x mu 0 * sin (x - mu) = 1 / (2 * π) * sin (x - mu) := by
        intro x; unfold wcPdf; simp
      simp only [this]
      rw [intervalIntegral.integral_const_mul,
        intervalIntegral.integral_comp_sub_right (fun x => sin x) mu, integral_sin]
      rw [show 2 * π - mu = 0 - mu + 2 * π by ring, cos_add_two_pi]; ring
    · have hd : ∀ x : ℝ, HasDerivAt (fun x : ℝ => (1 - rho ^ 2) / (4 * π * rho)
          * log (1 + rho ^ 2 - 2 * rho * cos (x - mu))) (wcPdf x mu rho * sin (x - mu)) x := by
        intro x
        have hk := wc_kernel_pos h0 h1 (x - mu)
        have hc : HasDerivAt (fun x : ℝ => cos (x - mu)) (-sin (x - mu) * 1) x :=
          ((hasDerivAt_id x).sub_const mu).cos
        have := (((hc.const_mul (2 * rho)).const_sub (1 + rho ^ 2)).log hk.ne').const_mul
          ((1 - rho ^ 2) / (4 * π * rho))
        refine this.congr_deriv ?_
        unfold wcPdf
        have := hk.ne'
        generalize cos (x - mu) = c at *
        rw [div_mul_div_comm, div_mul_eq_mul_div, div_eq_div_iff (by positivity) (by positivity)]
        ring
      rw [intervalIntegral.integral_eq_sub_of_hasDerivAt (fun x _ => hd x)
        ((hcont.mul (by fun_prop)).intervalIntegrable _ _)]
      rw [show 2 * π - mu = 0 - mu + 2 * π by ring, cos_add_two_pi]; ring
  have hi : ∀ g : ℝ → ℝ, Continuous g →
      IntervalIntegrable (fun x => wcPdf x mu rho * g x) volume 0 (2 * π) :=
    fun g hg => (hcont.mul hg).intervalIntegrable _ _
  have hm : distTrigMoment wrapcauchy 1 (mu, rho) = rho * Complex.exp (mu * Complex.I) := by
    rw [Complex.exp_mul_I, ← Complex.ofReal_cos, ← Complex.ofReal_sin]
    apply Complex.ext
    · have : (↑rho * (↑(cos mu) + ↑(sin mu) * Complex.I) : ℂ).re = rho * cos mu := by
        simp only [Complex.mul_re, Complex.add_re, Complex.add_im, Complex.mul_im, Complex.ofReal_re,
          Complex.ofReal_im, Complex.I_re, Complex.I_im]; ring
      rw [this]
      show ∫ x in (0 : ℝ)..(2 * π), wcPdf x mu rho * cos ((1 : ℕ) * x) = _
      have e : ∀ x : ℝ, wcPdf x mu rho * cos ((1 : ℕ) * x)
          = cos mu * (wcPdf x mu rho * cos (x - mu)) - sin mu * (wcPdf x mu rho * sin (x - mu)) := by
        intro x
        rw [Nat.cast_one, one_mul, show cos x = cos (x - mu + mu) by congr 1; ring, cos_add]; ring
      simp only [e]
      rw [intervalIntegral.integral_sub ((hi _ (by fun_prop)).const_mul _)
        ((hi _ (by fun_prop)).const_mul _), intervalIntegral.integral_const_mul,
        intervalIntegral.integral_const_mul, hC, hS]; ring
    · have : (↑rho * (↑(cos mu) + ↑(sin mu) * Complex.I) : ℂ).im = rho * sin mu := by
        simp only [Complex.mul_re, Complex.add_re, Complex.add_im, Complex.mul_im, Complex.ofReal_re,
          Complex.ofReal_im, Complex.I_re, Complex.I_im]; ring
      rw [this]
      show ∫ x in (0 : ℝ)..(2 * π), wcPdf x mu rho * sin ((1 : ℕ) * x) = _
      have e : ∀ x : ℝ, wcPdf x mu rho * sin ((1 : ℕ) * x)
          = cos mu * (wcPdf x mu rho * sin (x - mu)) + sin mu * (wcPdf x mu rho * cos (x - mu)) := by
        intro x
        rw [Nat.cast_one, one_mul, show sin x = sin (x - mu + mu) by congr 1; ring, sin_add]; ring
      simp only [e]
      rw [intervalIntegral.integral_add ((hi _ (by fun_prop)).const_mul _)
        ((hi _ (by fun_prop)).const_mul _), intervalIntegral.integral_const_mul,
        intervalIntegral.integral_const_mul, hC, hS]; ring
  refine ⟨hm, ?_⟩
  rw [hm]; unfold distR clip
  rw [norm_mul, Complex.norm_exp_ofReal_mul_I, mul_one, Complex.norm_real, norm_of_nonneg h0,
    max_eq_left h0, min_eq_left h1.le]

theorem floatTiny_le : floatTiny ≤ 1 / 10 ^ 301 := by
  unfold floatTiny
  apply one_div_le_one_div_of_le (by positivity)
  calc (10 : ℝ) ^ 301 ≤ 10 ^ 306 := pow_le_pow_right₀ (by norm_num) (by norm_num)
    _ = (10 ^ 3) ^ 102 := by rw [← pow_mul]
    _ ≤ (2 ^ 10) ^ 102 := pow_le_pow_left₀ (by positivity) (by norm_num) _
    _ = 2 ^ 1020 := by rw [← pow_mul]
    _ ≤ 2 ^ 1022 := pow_le_pow_right₀ (by norm_num) (by norm_num)

theorem floatTiny_le_small : floatTiny ≤ 1 / 10 ^ 20 :=
  floatTiny_le.trans (one_div_le_one_div_of_le (by positivity)
    (pow_le_pow_right₀ (by norm_num) (by norm_num)))

theorem arctan_le_self' {z : ℝ} (h : 0 ≤ z) : arctan z ≤ z := by
  have := le_tan (arctan_nonneg.mpr h) (arctan_lt_pi_div_two z)
  rwa [tan_arctan] at this

/-- What `_cdf` returns away from the window at `2π`. -/
theorem wcCdf_eq {mu rho x : ℝ} (h0 : floatTiny ≤ rho) (h1 : rho ≤ 1 - 1 / 10 ^ 15) (hx0 : 0 ≤ x)
    (hx1 : x ≤ 2 * π - 7 / 10 ^ 5) :
    wcCdf x mu rho =
      if wrapPi (-mu) ≤ wrapPi (x - mu) ∨ 1 / 10 ^ 12 < ∫ t in x..(2 * π), wcPdf t mu rho
      then ∫ t in (0 : ℝ)..x, wcPdf t mu rho else 0 := by
  have hpi := pi_lt_d2
  have h5 : (0 : ℝ) < 7 / 10 ^ 5 := by norm_num
  have htiny : 0 < floatTiny := by unfold floatTiny; positivity
  have hr0 : 0 ≤ rho := htiny.le.trans h0
  have hr1 : rho < 1 := lt_of_le_of_lt h1 (by norm_num)
  have hw : wrap2pi x = x := wrap2pi_self hx0 (by
    have := wrapTol_lt
    have : (1 : ℝ) / 10 ^ 14 < 7 / 10 ^ 5 := by norm_num
    linarith)
  have hclip : clip rho floatTiny (1 - 1 / 10 ^ 15) = rho := by
    unfold clip; rw [max_eq_left h0, min_eq_left h1]
  have hncl : ¬ isclose x (2 * π) rtolDefault atolDefault := by
    unfold isclose rtolDefault atolDefault
    rw [abs_of_nonpos (by linarith), abs_of_pos two_pi_pos, not_le]
    norm_num at hx1 ⊢
    linarith
  have hm1 := wrapPi_mem (x - mu)
  have hm2 := wrapPi_mem (-mu)
  have hdens := wc_isCircularDensity mu hr0 hr1
  have hcont := wcPdf_continuous mu hr0 hr1
  have hsum : (∫ t in (0 : ℝ)..x, wcPdf t mu rho) + ∫ t in x..(2 * π), wcPdf t mu rho = 1 := by
    rw [intervalIntegral.integral_add_adjacent_intervals (hcont.intervalIntegrable _ _)
      (hcont.intervalIntegrable _ _), hdens.mass]
  have hI0 : 0 ≤ ∫ t in (0 : ℝ)..x, wcPdf t mu rho :=
    intervalIntegral.integral_nonneg hx0 fun t _ => (wcPdf_pos t mu hr0 hr1).le
  have hR0 : 0 ≤ ∫ t in x..(2 * π), wcPdf t mu rho :=
    intervalIntegral.integral_nonneg (by linarith) fun t _ => (wcPdf_pos t mu hr0 hr1).le
  have hred := wc_reduce (mu := mu) hr0 hr1 hx0 (by linarith : x < 2 * π)
  unfold wcCdf
  simp only
  rw [hw, hclip, if_neg hncl, wcH_eq hr0 hr1 hm1.1 hm1.2, wcH_eq hr0 hr1 hm2.1 hm2.2]
  set I := ∫ t in (0 : ℝ)..x, wcPdf t mu rho with hI
  set R := ∫ t in x..(2 * π), wcPdf t mu rho with hR
  have h12 : (0 : ℝ) < 1 / 10 ^ 12 := by positivity
  by_cases hc : wrapPi (-mu) ≤ wrapPi (x - mu)
  · rw [if_pos hc, add_zero] at hred
    have hdiff : 1 / 2 + wcK rho (wrapPi (x - mu)) - (1 / 2 + wcK rho (wrapPi (-mu))) = I := by
      rw [hred]; ring
    rw [hdiff, if_pos (Or.inl hc), if_neg (show ¬ I < -(1 / 10 ^ 12) by linarith),
      if_neg (show ¬ 1 < I by linarith)]
    unfold clip
    rw [max_eq_left hI0, min_eq_left (by linarith)]
  · rw [if_neg hc] at hred
    have hdiff : 1 / 2 + wcK rho (wrapPi (x - mu)) - (1 / 2 + wcK rho (wrapPi (-mu))) = -R := by
      linarith
    rw [hdiff]
    by_cases hr : 1 / 10 ^ 12 < R
    · rw [if_pos (Or.inr hr), if_pos (show -R < -(1 / 10 ^ 12) by linarith),
        if_neg (show ¬ 1 < -R + 1 by linarith)]
      unfold clip
      rw [max_eq_left (by linarith), min_eq_left (by linarith)]; linarith
    · rw [if_neg (show ¬ (wrapPi (-mu) ≤ wrapPi (x - mu) ∨ 1 / 10 ^ 12 < R) by
          rintro (h | h) <;> contradiction),
        if_neg (show ¬ -R < -(1 / 10 ^ 12) by linarith [not_lt.mp hr]),
        if_neg (show ¬ 1 < -R by linarith)]
      unfold clip
      rw [max_eq_right (by linarith), min_eq_left (by norm_num)]

theorem distCdf_inner {σ : Type} (D : Family σ) (s : σ) (ha : D.argcheck s) {x : ℝ} (hx0 : 0 < x)
    (hx1 : x ≤ 2 * π - 1 / 10 ^ 14) : distCdf D x s = some (D.cdf x s) := by
  have : (0 : ℝ) < 1 / 10 ^ 14 := by positivity
  unfold distCdf
  rw [if_neg (not_not.mpr ha), wrap2pi_self hx0.le (by linarith [wrapTol_lt]), if_neg (by linarith),
    if_pos hx0]

theorem wcPdf_lower {rho : ℝ} (x mu : ℝ) (h0 : 0 ≤ rho) (h1 : rho < 1) :
    (1 - rho) / (4 * π) ≤ wcPdf x mu rho := by
  have hpi := pi_pos
  have hk := wc_kernel_pos h0 h1 (x - mu)
  unfold wcPdf
  rw [div_le_div_iff₀ (by positivity) (by positivity)]
  have hc := neg_one_le_cos (x - mu)
  have : 1 + rho ^ 2 - 2 * rho * cos (x - mu) ≤ (1 + rho) ^ 2 := by nlinarith
  have h2 : (1 - rho) * (2 * π * (1 + rho ^ 2 - 2 * rho * cos (x - mu)))
      ≤ (1 - rho) * (2 * π * (1 + rho) ^ 2) := by
    apply mul_le_mul_of_nonneg_left _ (by linarith)
    apply mul_le_mul_of_nonneg_left this (by positivity)
  refine h2.trans ?_
  have : (1 - rho) * (2 * π * (1 + rho) ^ 2) = 2 * π * (1 - rho ^ 2) * (1 + rho) := by ring
  rw [this]
  have h3 : 0 ≤ 2 * π * (1 - rho ^ 2) := by
    apply mul_nonneg (by positivity); nlinarith
  nlinarith

/-- **C75.** For `rho` up to `1 - 1e-6` the `cdf` method is exactly the integral of the density from 0,
for all angles up to `2π - 7e-5`. (`rho` below the smallest normal float, in particular `rho = 0`, is
replaced by that float: see `C75_cdf_uniform`.) -/
theorem C75_cdf {mu rho x : ℝ} (hm0 : 0 ≤ mu) (hm1 : mu ≤ 2 * π) (h0 : floatTiny ≤ rho)
    (h1 : rho ≤ 1 - 1 / 10 ^ 6) (hx0 : 0 ≤ x) (hx1 : x ≤ 2 * π - 7 / 10 ^ 5) :
    distCdf wrapcauchy x (mu, rho) = some (∫ t in (0 : ℝ)..x,
      (1 - rho ^ 2) / (2 * π * (1 + rho ^ 2 - 2 * rho * cos (t - mu)))) := by
  have hpi := pi_lt_d2
  have hpi' := pi_pos
  have htiny : 0 < floatTiny := by unfold floatTiny; positivity
  have hr0 : 0 ≤ rho := htiny.le.trans h0
  have h1' : rho ≤ 1 - 1 / 10 ^ 15 := h1.trans (by norm_num)
  have hr1 : rho < 1 := lt_of_le_of_lt h1 (by norm_num)
  have harg : wrapcauchy.argcheck (mu, rho) := ⟨⟨hm0, hm1⟩, hr0, hr1⟩
  rcases hx0.eq_or_lt with h | h
  · subst h
    unfold distCdf
    rw [wrap2pi_zero, if_neg (not_not.mpr harg), if_neg (by linarith [two_pi_pos]), if_neg (lt_irrefl _)]
    simp
  · have h14 : (1 : ℝ) / 10 ^ 14 < 7 / 10 ^ 5 := by norm_num
    rw [distCdf_inner wrapcauchy (mu, rho) harg h (by linarith)]
    show some (wcCdf x mu rho) = some (∫ t in (0 : ℝ)..x, wcPdf t mu rho)
    rw [wcCdf_eq h0 h1' hx0 hx1, if_pos]
    right
    have hcont := wcPdf_continuous mu hr0 hr1
    have hle : ∫ t in x..(2 * π), (1 - rho) / (4 * π) ≤ ∫ t in x..(2 * π), wcPdf t mu rho :=
      intervalIntegral.integral_mono_on (by linarith) intervalIntegrable_const
        (hcont.intervalIntegrable _ _) fun t _ => wcPdf_lower t mu hr0 hr1
    refine lt_of_lt_of_le ?_ hle
    rw [intervalIntegral.integral_const, smul_eq_mul, ← mul_div_assoc, lt_div_iff₀ (by positivity)]
    have : (7 : ℝ) / 10 ^ 5 * (1 / 10 ^ 6) ≤ (2 * π - x) * (1 - rho) :=
      mul_le_mul (by linarith) (by linarith) (by norm_num) (by linarith)
    norm_num at this ⊢
    linarith

theorem wcK_small {rho phi : ℝ} (h0 : 0 ≤ rho) (h1 : rho ≤ 1 / 2) :
    |wcK rho phi - phi / (2 * π)| ≤ rho := by
  have hpi := pi_gt_three
  have hd := wc_den_pos h0 (by linarith) phi
  have e : wcK rho phi - phi / (2 * π) = arctan (rho * sin phi / (1 - rho * cos phi)) / π := by
    unfold wcK; ring
  rw [e, abs_div, abs_of_pos pi_pos, div_le_iff₀ pi_pos]
  have hat : ∀ z : ℝ, |arctan z| ≤ |z| := by
    intro z
    rcases le_total 0 z with h | h
    · rw [abs_of_nonneg h, abs_of_nonneg (arctan_nonneg.mpr h)]
      exact arctan_le_self' h
    · rw [abs_of_nonpos h, abs_of_nonpos (arctan_le_zero.mpr h), ← arctan_neg]
      exact arctan_le_self' (by linarith)
  refine (hat _).trans ?_
  rw [abs_div, abs_of_pos hd, abs_mul, abs_of_nonneg h0, div_le_iff₀ hd]
  have hs := abs_sin_le_one phi
  have hc := cos_le_one phi
  have hden : (1 : ℝ) / 2 ≤ 1 - rho * cos phi := by nlinarith [neg_one_le_cos phi]
  have : rho * |sin phi| ≤ rho * 1 := mul_le_mul_of_nonneg_left hs h0
  nlinarith [mul_nonneg h0 (by linarith : (0 : ℝ) ≤ π)]

/-- **C75.** For `rho = 0` (uniform) the `cdf` method is within `1e-300` of `x/2π`. -/
theorem C75_cdf_uniform {mu x : ℝ} (hm0 : 0 ≤ mu) (hm1 : mu ≤ 2 * π) (hx0 : 0 < x)
    (hx1 : x ≤ 2 * π - 7 / 10 ^ 5) :
    ∃ c, distCdf wrapcauchy x (mu, 0) = some c ∧ |c - x / (2 * π)| ≤ 1 / 10 ^ 300 := by
  have htiny : 0 < floatTiny := by unfold floatTiny; positivity
  have ht : floatTiny ≤ 1 - 1 / 10 ^ 6 := floatTiny_le_small.trans (by norm_num)
  have h14 : (1 : ℝ) / 10 ^ 14 < 7 / 10 ^ 5 := by norm_num
  have harg : wrapcauchy.argcheck (mu, 0) := ⟨⟨hm0, hm1⟩, le_rfl, one_pos⟩
  have harg' : wrapcauchy.argcheck (mu, floatTiny) :=
    ⟨⟨hm0, hm1⟩, htiny.le, lt_of_le_of_lt ht (by norm_num)⟩
  have h := C75_cdf hm0 hm1 le_rfl ht hx0.le hx1
  rw [distCdf_inner wrapcauchy _ harg' hx0 (by linarith)] at h
  refine ⟨_, distCdf_inner wrapcauchy _ harg hx0 (by linarith), ?_⟩
  have e : wrapcauchy.cdf x (mu, 0) = wrapcauchy.cdf x (mu, floatTiny) := by
    show wcCdf x mu 0 = wcCdf x mu floatTiny
    have : clip 0 floatTiny (1 - 1 / 10 ^ 15) = clip floatTiny floatTiny (1 - 1 / 10 ^ 15) := by
      unfold clip; rw [max_eq_right htiny.le, max_self]
    unfold wcCdf
    rw [this]
  have h2 : wrapcauchy.cdf x (mu, floatTiny)
      = ∫ t in (0 : ℝ)..x, wcPdf t mu floatTiny := Option.some.inj h
  rw [e, h2, wcPdf_integral mu htiny.le (lt_of_le_of_lt ht (by norm_num))]
  have hhalf : floatTiny ≤ 1 / 2 := floatTiny_le_small.trans (by norm_num)
  have a := wcK_small (phi := x - mu) htiny.le hhalf
  have b := wcK_small (phi := 0 - mu) htiny.le hhalf
  have e3 : wcK floatTiny (x - mu) - wcK floatTiny (0 - mu) - x / (2 * π)
      = (wcK floatTiny (x - mu) - (x - mu) / (2 * π)) - (wcK floatTiny (0 - mu) - (0 - mu) / (2 * π)) := by
    ring
  rw [e3]
  have hf : floatTiny + floatTiny ≤ 1 / 10 ^ 300 := by
    have h1 : (1 : ℝ) / 10 ^ 300 = 10 * (1 / 10 ^ 301) := by
      rw [pow_succ (10 : ℝ) 300, mul_one_div, mul_comm, div_mul_cancel_left₀ (by norm_num), one_div]
    have h2 : (0 : ℝ) < 1 / 10 ^ 301 := by positivity
    rw [h1]
    linarith [floatTiny_le]
  exact ((abs_sub _ _).trans (add_le_add a b)).trans hf

/-- **C75 (negative).** Within `6e-5` of `2π` the `cdf` method is 1, whatever the parameters. For a
concentrated distribution around 0 (`mu = 0`, `rho = 1 - 1e-6`) this jumps over more than a quarter of
the mass. -/
theorem C75_cdf_jump :
    (∀ mu rho x : ℝ, wrapcauchy.argcheck (mu, rho) → 2 * π - 6 / 10 ^ 5 ≤ x → x ≤ 2 * π →
      distCdf wrapcauchy x (mu, rho) = some 1) ∧
    (∫ t in (0 : ℝ)..(2 * π - 6 / 10 ^ 5), wcPdf t 0 (1 - 1 / 10 ^ 6)) ≤ 3 / 4 := by
  have hpi := pi_gt_three
  constructor
  · intro mu rho x harg hx0 hx1
    have h6 : (6 : ℝ) / 10 ^ 5 < 1 := by norm_num
    by_cases hc : x < 2 * π - wrapTol
    · have hw : wrap2pi x = x := wrap2pi_self (by linarith) hc
      unfold distCdf
      have := wrapTol_pos
      rw [hw, if_neg (not_not.mpr harg), if_neg (by linarith), if_pos (by linarith)]
      show some (wcCdf x mu rho) = some 1
      unfold wcCdf
      simp only
      rw [hw, if_pos]
      unfold isclose rtolDefault atolDefault
      rw [abs_of_nonpos (by linarith), abs_of_pos two_pi_pos]
      norm_num at hx0 ⊢
      linarith
    · have hw : wrap2pi x = 2 * π := wrap2pi_close (by
        rw [abs_of_nonpos (by linarith)]; linarith [not_lt.mp hc])
      unfold distCdf
      rw [hw, if_neg (not_not.mpr harg), if_pos le_rfl]
  · have hr0 : (0 : ℝ) ≤ 1 - 1 / 10 ^ 6 := by norm_num
    have hr1 : (1 : ℝ) - 1 / 10 ^ 6 < 1 := by norm_num
    rw [wcPdf_integral 0 hr0 hr1, show (2 * π - 6 / 10 ^ 5 - 0 : ℝ) = -(6 / 10 ^ 5) + 2 * π by ring,
      wcK_add_two_pi, wcK_neg, sub_zero, wcK_zero]
    have hK : (1 : ℝ) / 4 ≤ wcK (1 - 1 / 10 ^ 6) (6 / 10 ^ 5) := by
      unfold wcK
      have hd := wc_den_pos hr0 hr1 (6 / 10 ^ 5)
      have hs : (6 : ℝ) / 10 ^ 5 - (6 / 10 ^ 5) ^ 3 / 6 < sin (6 / 10 ^ 5) :=
        sin_gt_sub_cube (by norm_num)
      have hc := one_sub_sq_div_two_le_cos (x := (6 : ℝ) / 10 ^ 5)
      have hat : π / 4 ≤ arctan ((1 - 1 / 10 ^ 6) * sin (6 / 10 ^ 5)
          / (1 - (1 - 1 / 10 ^ 6) * cos (6 / 10 ^ 5))) := by
        rw [← arctan_one]
        apply arctan_mono
        rw [le_div_iff₀ hd]
        norm_num at hs hc ⊢
        linarith
      have h1 : (1 : ℝ) / 4 = π / 4 / π := by field_simp
      have h2 : π / 4 / π ≤ arctan ((1 - 1 / 10 ^ 6) * sin (6 / 10 ^ 5)
          / (1 - (1 - 1 / 10 ^ 6) * cos (6 / 10 ^ 5))) / π :=
        div_le_div_of_nonneg_right hat (by linarith)
      have h3 : (0 : ℝ) ≤ 6 / 10 ^ 5 / (2 * π) := by positivity
      linarith
    linarith

/-- **C75 (negative).** Where the mass still to come is below `1e-12`, the `cdf` method can drop to 0:
for `mu = π/2`, `rho = 1 - 1e-9` it is 0 at `2π - 0.001`, although the probability of the angles up to
there exceeds `1 - 1e-12`. -/
theorem C75_cdf_drop :
    distCdf wrapcauchy (2 * π - 1 / 10 ^ 3) (π / 2, 1 - 1 / 10 ^ 9) = some 0 ∧
    1 - 1 / 10 ^ 12 ≤ ∫ t in (0 : ℝ)..(2 * π - 1 / 10 ^ 3), wcPdf t (π / 2) (1 - 1 / 10 ^ 9) := by
  have hpi := pi_gt_three
  have hr0 : (0 : ℝ) ≤ 1 - 1 / 10 ^ 9 := by norm_num
  have hr1 : (1 : ℝ) - 1 / 10 ^ 9 < 1 := by norm_num
  have hcont := wcPdf_continuous (π / 2) hr0 hr1
  have hrem : ∫ t in (2 * π - 1 / 10 ^ 3)..(2 * π), wcPdf t (π / 2) (1 - 1 / 10 ^ 9)
      ≤ 1 / 10 ^ 12 := by
    have hle : ∫ t in (2 * π - 1 / 10 ^ 3)..(2 * π), wcPdf t (π / 2) (1 - 1 / 10 ^ 9)
        ≤ ∫ t in (2 * π - 1 / 10 ^ 3)..(2 * π), (1 : ℝ) / 10 ^ 9 := by
      apply intervalIntegral.integral_mono_on (by norm_num) (hcont.intervalIntegrable _ _)
        intervalIntegrable_const
      intro t ht
      have hs : sin t ≤ 0 := by
        have h2 : sin t = -sin (2 * π - t) := by rw [sin_two_pi_sub]; ring
        rw [h2]
        have := sin_nonneg_of_nonneg_of_le_pi (x := 2 * π - t) (by linarith [ht.2])
          (by have := ht.1; norm_num at this; linarith)
        linarith
      unfold wcPdf
      rw [cos_sub_pi_div_two, div_le_iff₀ (by
        have := wc_kernel_pos hr0 hr1 (t - π / 2)
        rw [cos_sub_pi_div_two] at this
        positivity)]
      norm_num
      nlinarith
    refine hle.trans (le_of_eq ?_)
    rw [intervalIntegral.integral_const, smul_eq_mul]; norm_num
  have hsum : (∫ t in (0 : ℝ)..(2 * π - 1 / 10 ^ 3), wcPdf t (π / 2) (1 - 1 / 10 ^ 9))
      + ∫ t in (2 * π - 1 / 10 ^ 3)..(2 * π), wcPdf t (π / 2) (1 - 1 / 10 ^ 9) = 1 := by
    rw [intervalIntegral.integral_add_adjacent_intervals (hcont.intervalIntegrable _ _)
      (hcont.intervalIntegrable _ _), (wc_isCircularDensity (π / 2) hr0 hr1).mass]
  refine ⟨?_, by linarith⟩
  have harg : wrapcauchy.argcheck (π / 2, 1 - 1 / 10 ^ 9) :=
    ⟨⟨by positivity, by show π / 2 ≤ 2 * π; linarith⟩, hr0, hr1⟩
  have h3 : (1 : ℝ) / 10 ^ 3 < 1 := by norm_num
  have h7 : (7 : ℝ) / 10 ^ 5 < 1 / 10 ^ 3 := by norm_num
  have h14 : (1 : ℝ) / 10 ^ 14 < 1 / 10 ^ 3 := by norm_num
  rw [distCdf_inner wrapcauchy _ harg (by linarith) (by linarith)]
  show some (wcCdf (2 * π - 1 / 10 ^ 3) (π / 2) (1 - 1 / 10 ^ 9)) = some 0
  have w1 : wrapPi (-(π / 2)) = -(π / 2) := by
    unfold wrapPi
    rw [pymod_eq_self two_pi_pos (by linarith) (by linarith)]; ring
  have w2 : wrapPi (2 * π - 1 / 10 ^ 3 - π / 2) = -(π / 2) - 1 / 10 ^ 3 := by
    unfold wrapPi
    rw [(pymod_eq_iff two_pi_pos (y := π / 2 - 1 / 10 ^ 3)).mpr
      ⟨by linarith, by linarith, ⟨-1, by push_cast; ring⟩⟩]
    ring
  rw [wcCdf_eq (floatTiny_le_small.trans (by norm_num)) (by norm_num) (by linarith) (by linarith), if_neg]
  rw [w1, w2]
  rintro (h | h)
  · have : (0 : ℝ) < 1 / 10 ^ 3 := by norm_num
    linarith
  · linarith

/-- **C75.** The quantile function: for every accepted shape and every `q` from `1e-15` to
`1 - 2e-15`, the angle returned lies in `[0, 2π)` and the probability of the angles up to it is `q`,
up to `1e-14`. -/
theorem C75_ppf {mu rho q : ℝ} (hm0 : 0 ≤ mu) (hm1 : mu ≤ 2 * π) (h0 : 0 ≤ rho) (h1 : rho < 1)
    (hq0 : 1 / 10 ^ 15 ≤ q) (hq1 : q ≤ 1 - 2 / 10 ^ 15) :
    ∃ x, distPpf wrapcauchy q (mu, rho) = some x ∧ 0 ≤ x ∧ x < 2 * π ∧
      |(∫ t in (0 : ℝ)..x, (1 - rho ^ 2) / (2 * π * (1 + rho ^ 2 - 2 * rho * cos (t - mu)))) - q|
        ≤ 1 / 10 ^ 14 := by
  have hpi := pi_gt_three
  have hp := two_pi_pos
  have h15 : (0 : ℝ) < 1 / 10 ^ 15 := by positivity
  have hq0' : 0 < q := by linarith
  have hq1' : q < 1 := lt_of_le_of_lt hq1 (by norm_num)
  have harg : wrapcauchy.argcheck (mu, rho) := ⟨⟨hm0, hm1⟩, h0, h1⟩
  refine ⟨wcPpf q mu rho, ?_, ?_⟩
  · unfold distPpf
    rw [if_neg (not_not.mpr harg), if_neg hq0'.ne', if_neg hq1'.ne, if_pos ⟨hq0', hq1'⟩]
    rfl
  show 0 ≤ wcPpf q mu rho ∧ wcPpf q mu rho < 2 * π ∧
    |(∫ t in (0 : ℝ)..(wcPpf q mu rho), wcPdf t mu rho) - q| ≤ 1 / 10 ^ 14
  by_cases hr : rho ≤ 1 / 10 ^ 15
  · have e : wcPpf q mu rho = 2 * π * q := by
      unfold wcPpf
      simp only
      rw [if_pos hr, pymod_eq_self hp (by positivity) (by nlinarith)]
    rw [e]
    refine ⟨by positivity, by nlinarith, ?_⟩
    rw [wcPdf_integral mu h0 h1]
    have hh : rho ≤ 1 / 2 := hr.trans (by norm_num)
    have a := wcK_small (phi := 2 * π * q - mu) h0 hh
    have b := wcK_small (phi := 0 - mu) h0 hh
    have e3 : wcK rho (2 * π * q - mu) - wcK rho (0 - mu) - q
        = (wcK rho (2 * π * q - mu) - (2 * π * q - mu) / (2 * π))
          - (wcK rho (0 - mu) - (0 - mu) / (2 * π)) := by
      field_simp; ring
    rw [e3]
    have : rho + rho ≤ 1 / 10 ^ 14 := by
      have : (1 : ℝ) / 10 ^ 15 + 1 / 10 ^ 15 ≤ 1 / 10 ^ 14 := by norm_num
      linarith
    exact ((abs_sub _ _).trans (add_le_add a b)).trans this
  · have hr' : 0 < rho := lt_trans h15 (not_le.mp hr)
    have hA : 0 < (1 + rho) / (1 - rho) := div_pos (by linarith) (by linarith)
    set muV := pymod mu (2 * π) with hmuV
    have hcong := pymod_cong mu (2 * π)
    rw [← hmuV] at hcong
    have hmem0 := wrapPi_mem (-muV)
    set H0 := 1 / 2 + wcK rho (wrapPi (-muV)) with hH0
    have hH0r : 0 ≤ H0 ∧ H0 < 1 := by
      have a := (wcK_strictMono h0 h1).monotone hmem0.1
      have b := wcK_strictMono h0 h1 hmem0.2
      rw [wcK_neg, wcK_pi] at a
      rw [wcK_pi] at b
      exact ⟨by linarith, by linarith⟩
    set s := pymod (H0 + q) 1 with hs
    set c := clip s (1 / 10 ^ 15) (1 - 1 / 10 ^ 15) with hc
    have hcr : 1 / 10 ^ 15 ≤ c ∧ c ≤ 1 - 1 / 10 ^ 15 := by
      rw [hc]; unfold clip
      exact ⟨le_min (le_max_right _ _) (by norm_num), min_le_right _ _⟩
    set alpha := π * (c - 1 / 2) with hal
    have hal1 : -(π / 2) < alpha := by rw [hal]; nlinarith
    have hal2 : alpha < π / 2 := by rw [hal]; nlinarith
    set phi := 2 * arctan (tan alpha / ((1 + rho) / (1 - rho))) with hphi
    have hb1 := arctan_lt_pi_div_two (tan alpha / ((1 + rho) / (1 - rho)))
    have hb2 := neg_pi_div_two_lt_arctan (tan alpha / ((1 + rho) / (1 - rho)))
    have hp1 : -π < phi := by rw [hphi]; linarith
    have hp2 : phi < π := by rw [hphi]; linarith
    have hHphi : 1 / 2 + wcK rho phi = c := by
      rw [← wcH_eq h0 h1 hp1.le hp2]
      unfold wcH arctan2
      have hhalf : 1 / 2 * phi = arctan (tan alpha / ((1 + rho) / (1 - rho))) := by rw [hphi]; ring
      rw [hhalf]
      set b := arctan (tan alpha / ((1 + rho) / (1 - rho))) with hbdef
      have hcb : 0 < cos b := cos_arctan_pos _
      have harg2 : Complex.arg (⟨cos b, (1 + rho) / (1 - rho) * sin b⟩ : ℂ) = alpha := by
        have habs : |Complex.arg (⟨cos b, (1 + rho) / (1 - rho) * sin b⟩ : ℂ)| < π / 2 := by
          rw [Complex.abs_arg_lt_pi_div_two_iff]
          exact Or.inl hcb
        rw [abs_lt] at habs
        have ht := Complex.tan_arg (⟨cos b, (1 + rho) / (1 - rho) * sin b⟩ : ℂ)
        simp only at ht
        have htb : tan b = tan alpha / ((1 + rho) / (1 - rho)) := tan_arctan _
        rw [mul_div_assoc, ← tan_eq_sin_div_cos, htb, mul_div_cancel₀ _ hA.ne'] at ht
        rw [← arctan_tan habs.1 habs.2, ht, arctan_tan hal1 hal2]
      rw [harg2, hal]
      field_simp
      ring
    have hx : wcPpf q mu rho = pymod (muV + phi) (2 * π) := by
      unfold wcPpf
      simp only
      rw [if_neg hr, ← hmuV, wcH_eq h0 h1 hmem0.1 hmem0.2, ← hH0, ← hs, ← hc, ← hal, ← hphi]
    rw [hx]
    have hx0 := pymod_nonneg hp (muV + phi)
    have hx1 := pymod_lt hp (muV + phi)
    obtain ⟨k, hk⟩ := pymod_cong (muV + phi) (2 * π)
    set x := pymod (muV + phi) (2 * π) with hxdef
    refine ⟨hx0, hx1, ?_⟩
    have hpdf : ∀ t, wcPdf t mu rho = wcPdf t muV rho := by
      intro t
      unfold wcPdf
      rw [cos_sub, cos_sub, cos_eq_of_sameDir hcong, sin_eq_of_sameDir hcong]
    simp only [hpdf]
    rw [wc_reduce h0 h1 hx0 hx1]
    have hwx : wrapPi (x - muV) = phi := by
      unfold wrapPi
      rw [(pymod_eq_iff hp (y := phi + π)).mpr ⟨by linarith, by linarith, ⟨-k, by
        rw [hk]; push_cast; ring⟩⟩]
      ring
    rw [hwx]
    have hsm := wcK_strictMono h0 h1
    have hcmp : wrapPi (-muV) ≤ phi ↔ H0 ≤ c := by
      rw [← hHphi, hH0]
      constructor
      · intro h; have := hsm.monotone h; linarith
      · intro h; exact hsm.le_iff_le.mp (by linarith)
    have e : wcK rho phi - wcK rho (wrapPi (-muV)) = c - H0 := by linarith
    rw [e]
    have hgoal : |c - H0 + (if wrapPi (-muV) ≤ phi then (0 : ℝ) else 1) - q| ≤ 1 / 10 ^ 15 := by
      rcases lt_or_ge (H0 + q) 1 with hlt | hge
      · have hse : s = H0 + q := by
          rw [hs]; exact pymod_eq_self one_pos (by linarith [hH0r.1]) hlt
        have hce : c = min (H0 + q) (1 - 1 / 10 ^ 15) := by
          rw [hc, hse]; unfold clip
          rw [max_eq_left (by linarith [hH0r.1])]
        have h2 : (1 : ℝ) / 10 ^ 15 < 2 / 10 ^ 15 := by norm_num
        have hle : H0 ≤ c := by
          rw [hce]; exact le_min (by linarith) (by linarith)
        rw [if_pos (hcmp.mpr hle), hce]
        rcases min_cases (H0 + q) (1 - 1 / 10 ^ 15) with ⟨h, _⟩ | ⟨h, h'⟩ <;> rw [h, abs_le] <;>
          constructor <;> linarith
      · have hse : s = H0 + q - 1 := by
          rw [hs]
          exact (pymod_eq_iff one_pos).mpr ⟨by linarith, by linarith [hH0r.2], ⟨-1, by push_cast; ring⟩⟩
        have h2 : (2 : ℝ) / 10 ^ 15 = 1 / 10 ^ 15 + 1 / 10 ^ 15 := by norm_num
        have hce : c = max (H0 + q - 1) (1 / 10 ^ 15) := by
          rw [hc, hse]; unfold clip
          rw [min_eq_left]
          exact max_le (by linarith [hH0r.2]) (by norm_num)
        have hlt : ¬ H0 ≤ c := by
          rw [hce, not_le]
          exact max_lt (by linarith) (by linarith)
        rw [if_neg (fun h => hlt (hcmp.mp h)), hce]
        rcases max_cases (H0 + q - 1) (1 / 10 ^ 15) with ⟨h, _⟩ | ⟨h, h'⟩ <;> rw [h, abs_le] <;>
          constructor <;> linarith
    exact hgoal.trans (by norm_num)

/-! ## Non-vacuity -/

example : distCdf wrapcauchy 1 (2, 1 / 2) = some (∫ t in (0 : ℝ)..1,
    (1 - (1 / 2) ^ 2) / (2 * π * (1 + (1 / 2) ^ 2 - 2 * (1 / 2) * cos (t - 2)))) := by
  have := pi_gt_three
  have h5 : (7 : ℝ) / 10 ^ 5 < 1 := by norm_num
  exact C75_cdf (by norm_num) (by linarith) (floatTiny_le_small.trans (by norm_num)) (by norm_num)
    (by norm_num) (by linarith)

end Verif
