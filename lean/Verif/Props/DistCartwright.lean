import Verif.Lemmas.CartwrightCdf
import Verif.Props.DistJonesPewsey
import Verif.Props.DistCauchy
import Verif.Spec.Distribution

/-! # C111: Cartwright's distribution -/

set_option autoImplicit false

namespace Verif

open Verif.Spec Real MeasureTheory ProbabilityTheory

lemma cwPdf_density {zeta : ℝ} (hz : 0 < zeta) (mu x : ℝ) : cwPdf x mu zeta = cartwrightDensity mu zeta x := by
  have hp : 0 < 1 / zeta := by positivity
  have hm := cwG_mass hp
  unfold cwG at hm
  rw [intervalIntegral.integral_const_mul] at hm
  rw [cwPdf_eq]
  unfold cwG cartwrightDensity
  rw [mul_comm, eq_div_iff (right_ne_zero_of_mul_eq_one hm), mul_assoc, hm, mul_one]

lemma cwG_cos_half {p : ℝ} (hp : 0 < p) : ∫ t in (0 : ℝ)..π, cos t * cwG p t = p / (1 + p) * (1 / 2) := by
  obtain ⟨K, hK⟩ : ∃ K, K = (2 : ℝ) ^ (-1 + p) * Gamma (1 + p) ^ 2 / (π * Gamma (1 + 2 * p)) := ⟨_, rfl⟩
  have hc := cwG_continuous hp
  have hd : ∀ t ∈ Set.Ioo 0 π, HasDerivAt (fun t => sin t * cwG p t) ((1 + p) * (cos t * cwG p t) - p * cwG p t) t := by
    intro t ht
    have hpos : 0 < 1 + cos t := by
      have := cos_lt_cos_of_nonneg_of_le_pi ht.1.le le_rfl ht.2
      rw [cos_pi] at this; linarith
    have h1 : HasDerivAt (fun t => 1 + cos t) (-sin t) t := by simpa using (hasDerivAt_cos t).const_add 1
    have h2 := h1.rpow_const (p := p) (Or.inl hpos.ne')
    have h3 := (hasDerivAt_sin t).mul (h2.const_mul K)
    have e : (fun t => sin t * cwG p t) = fun t => sin t * (K * (1 + cos t) ^ p) := by
      funext t; unfold cwG; rw [hK]
    rw [e]
    refine h3.congr_deriv ?_
    unfold cwG
    rw [← hK]
    have hr : (1 + cos t) ^ p = (1 + cos t) * (1 + cos t) ^ (p - 1) := by
      rw [← rpow_one_add' hpos.le (by linarith)]; congr 1; ring
    have hs : sin t ^ 2 = (1 - cos t) * (1 + cos t) := by nlinarith [sin_sq_add_cos_sq t]
    rw [hr]
    linear_combination (-K * p * (1 + cos t) ^ (p - 1)) * hs
  have h := intervalIntegral.integral_eq_sub_of_hasDerivAt_of_le pi_pos.le
    (continuous_sin.mul hc).continuousOn hd
    ((((continuous_const.mul (continuous_cos.mul hc)).sub (continuous_const.mul hc))).intervalIntegrable _ _)
  simp only [Pi.mul_apply] at h
  have hi1 : IntervalIntegrable (fun t => (1 + p) * (cos t * cwG p t)) volume 0 π :=
    (continuous_const.mul (continuous_cos.mul hc)).intervalIntegrable _ _
  have hi2 : IntervalIntegrable (fun t => p * cwG p t) volume 0 π := (continuous_const.mul hc).intervalIntegrable _ _
  rw [sin_pi, sin_zero, zero_mul, zero_mul, sub_zero, intervalIntegral.integral_sub hi1 hi2, intervalIntegral.integral_const_mul,
    intervalIntegral.integral_const_mul, cwG_half hp] at h
  field_simp
  linarith

lemma cw_reflect (h : ℝ → ℝ) : ∫ t in (0 : ℝ)..(2 * π), h t = ∫ t in (0 : ℝ)..(2 * π), h (2 * π - t) := by
  rw [intervalIntegral.integral_comp_sub_left (fun t => h t) (2 * π)]
  simp

lemma cwG_cos {p : ℝ} (hp : 0 < p) : ∫ t in (0 : ℝ)..(2 * π), cos t * cwG p t = p / (1 + p) := by
  have hc : Continuous fun t => cos t * cwG p t := continuous_cos.mul (cwG_continuous hp)
  have hi : ∀ a b, IntervalIntegrable (fun t => cos t * cwG p t) volume a b := fun a b => hc.intervalIntegrable a b
  have h2 : ∫ t in π..(2 * π), cos t * cwG p t = ∫ t in (0 : ℝ)..π, cos t * cwG p t := by
    have := intervalIntegral.integral_comp_sub_left (fun t => cos t * cwG p t) (2 * π) (a := π) (b := 2 * π)
    rw [show 2 * π - 2 * π = 0 by ring, show 2 * π - π = π by ring] at this
    rw [← this]
    refine intervalIntegral.integral_congr fun t _ => ?_
    show cos t * cwG p t = cos (2 * π - t) * cwG p (2 * π - t)
    rw [cos_two_pi_sub, show 2 * π - t = -t + 2 * π by ring, cwG_periodic p (-t), cwG_neg]
  rw [← intervalIntegral.integral_add_adjacent_intervals (hi 0 π) (hi π (2 * π)), h2, cwG_cos_half hp]
  ring

lemma cwG_sin (p : ℝ) : ∫ t in (0 : ℝ)..(2 * π), sin t * cwG p t = 0 := by
  have h := cw_reflect fun t => sin t * cwG p t
  have e : ∀ t, sin (2 * π - t) * cwG p (2 * π - t) = -(sin t * cwG p t) := by
    intro t
    rw [sin_two_pi_sub, show 2 * π - t = -t + 2 * π by ring, cwG_periodic p (-t), cwG_neg]
    ring
  simp only [e] at h
  rw [intervalIntegral.integral_neg] at h
  linarith

lemma cw_shift (h : ℝ → ℝ) (hh : Function.Periodic h (2 * π)) (mu : ℝ) :
    ∫ x in (0 : ℝ)..(2 * π), h (x - mu) = ∫ t in (0 : ℝ)..(2 * π), h t := by
  rw [intervalIntegral.integral_comp_sub_right (fun t => h t) mu, zero_sub,
    show 2 * π - mu = -mu + 2 * π by ring, hh.intervalIntegral_add_eq (-mu) 0, zero_add]

lemma cw_arg (binv : ℝ → ℝ → ℝ → ℝ) {mu zeta : ℝ} (hm0 : 0 ≤ mu) (hm1 : mu ≤ 2 * π) (hz : 0 < zeta) :
    (cartwright binv).argcheck (mu, zeta) := ⟨⟨hm0, hm1⟩, hz⟩

/-- **C111.** The `pdf` method of Cartwright's distribution is the density proportional to
`(1 + cos(x - mu))^(1/zeta)`; its first trigonometric moment about `mu` is `1/(1 + zeta)`. -/
theorem C111_density (binv : ℝ → ℝ → ℝ → ℝ) {mu zeta : ℝ} (hm0 : 0 ≤ mu) (hm1 : mu ≤ 2 * π) (hz : 0 < zeta) :
    IsCircularDensity (cartwrightDensity mu zeta) ∧
    (∀ x, RegularAngle x → distPdf (cartwright binv) x (mu, zeta) = some (cartwrightDensity mu zeta x)) ∧
    ∫ x in (0 : ℝ)..(2 * π), cos (x - mu) * cartwrightDensity mu zeta x = 1 / (1 + zeta) ∧
    ∫ x in (0 : ℝ)..(2 * π), sin (x - mu) * cartwrightDensity mu zeta x = 0 := by
  have hp : 0 < 1 / zeta := by positivity
  have e : ∀ x, cartwrightDensity mu zeta x = cwG (1 / zeta) (x - mu) := fun x => by
    rw [← cwPdf_density hz, cwPdf_eq]
  simp only [e]
  have hc : Continuous fun x => cwG (1 / zeta) (x - mu) :=
    (cwG_continuous hp).comp (continuous_id.sub continuous_const)
  refine ⟨⟨fun x _ _ => by rw [e]; exact cwG_nonneg hp _, ?_, ?_⟩, ?_, ?_, ?_⟩
  · simp only [funext e]; exact hc.intervalIntegrable _ _
  · simp only [e]
    rw [cw_shift _ (cwG_periodic _), cwG_mass hp]
  · intro x hx
    rw [distPdf_regular (cartwright binv) (cw_arg binv hm0 hm1 hz) hx]
    show some (cwPdf x mu zeta) = _
    rw [cwPdf_eq]
  · rw [cw_shift (fun t => cos t * cwG (1 / zeta) t)
      (fun t => by simp only; rw [cos_add_two_pi, cwG_periodic _ t]), cwG_cos hp]
    field_simp
    ring
  · rw [cw_shift (fun t => sin t * cwG (1 / zeta) t)
      (fun t => by simp only; rw [sin_add_two_pi, cwG_periodic _ t]), cwG_sin]

/-- **C111.** The `cdf` method is the integral of the density from 0, for angles up to `2π - 7e-5`. -/
theorem C111_cdf (binv : ℝ → ℝ → ℝ → ℝ) {mu zeta x : ℝ} (hm0 : 0 ≤ mu) (hm1 : mu ≤ 2 * π) (hz : 0 < zeta)
    (hx0 : 0 ≤ x) (hx1 : x ≤ 2 * π - 7 / 10 ^ 5) :
    distCdf (cartwright binv) x (mu, zeta) = some (∫ t in (0 : ℝ)..x, cartwrightDensity mu zeta t) := by
  have harg := cw_arg binv hm0 hm1 hz
  simp only [← cwPdf_density hz]
  rcases hx0.eq_or_lt with h | h
  · subst h
    unfold distCdf
    rw [wrap2pi_zero, if_neg (not_not.mpr harg), if_neg (by linarith [two_pi_pos]), if_neg (lt_irrefl _)]
    simp
  · have h14 : (1 : ℝ) / 10 ^ 14 < 7 / 10 ^ 5 := by norm_num
    rw [distCdf_inner (cartwright binv) (mu, zeta) harg h (by linarith)]
    show some (cwCdf x mu zeta) = _
    rw [cwCdf_eq hz hx0 hx1]

/-- **C111 (negative).** From `2π - 6e-5` on the `cdf` method is 1, although the angles still to come have positive
probability. -/
theorem C111_cdf_end (binv : ℝ → ℝ → ℝ → ℝ) {mu zeta x : ℝ} (hm0 : 0 ≤ mu) (hm1 : mu ≤ 2 * π) (hz : 0 < zeta)
    (hx0 : 2 * π - 6 / 10 ^ 5 ≤ x) (hx1 : x < 2 * π) :
    distCdf (cartwright binv) x (mu, zeta) = some 1 ∧ ∫ t in (0 : ℝ)..x, cartwrightDensity mu zeta t < 1 := by
  have harg := cw_arg binv hm0 hm1 hz
  have hpi := pi_gt_three
  have h6 : (6 : ℝ) / 10 ^ 5 < 1 := by norm_num
  refine ⟨?_, by simp only [← cwPdf_density hz]; exact cwPdf_integral_lt hz hx1⟩
  by_cases hc : x < 2 * π - wrapTol
  · have hw : wrap2pi x = x := wrap2pi_self (by linarith) hc
    unfold distCdf
    rw [hw, if_neg (not_not.mpr harg), if_neg (by linarith), if_pos (by linarith)]
    show some (cwCdf x mu zeta) = some 1
    rw [cwCdf_close hx0 hx1.le]
  · have hw : wrap2pi x = 2 * π := wrap2pi_close (by
      rw [abs_of_nonpos (by linarith)]; linarith [not_lt.mp hc])
    unfold distCdf
    rw [hw, if_neg (not_not.mpr harg), if_pos le_rfl]

/-- **C111.** Quantiles: if the inverse of the incomplete beta function is exact, `ppf(q)` is the angle of `[0, 2π)`
below which the density has mass exactly `q`, for `q` further than `1e-12` from 0 and 1. -/
theorem C111_ppf (binv : ℝ → ℝ → ℝ → ℝ) {mu zeta q : ℝ} (hm0 : 0 ≤ mu) (hm1 : mu ≤ 2 * π) (hz : 0 < zeta)
    (hb : InvertsBeta binv (1 / 2) (1 / zeta + 1 / 2)) (h0 : 1 / 10 ^ 12 < q) (h1 : q < 1 - 1 / 10 ^ 12) :
    ∃ theta, distPpf (cartwright binv) q (mu, zeta) = some theta ∧ 0 ≤ theta ∧ theta < 2 * π ∧
      ∫ t in (0 : ℝ)..theta, cartwrightDensity mu zeta t = q := by
  have h12 : (0 : ℝ) < 1 / 10 ^ 12 := by positivity
  obtain ⟨a, b, c⟩ := cwPpf_inner (mu := mu) hb hz h0 h1
  refine ⟨cwPpf binv q mu zeta, ?_, a, b, by simp only [← cwPdf_density hz]; exact c⟩
  unfold distPpf
  rw [if_neg (not_not.mpr (cw_arg binv hm0 hm1 hz)), if_neg (by linarith), if_neg (by linarith),
    if_pos ⟨by linarith, by linarith⟩]
  rfl

/-- **C111.** Probabilities within `1e-12` of the ends: `ppf` is 0 and `2π`. -/
theorem C111_ppf_ends (binv : ℝ → ℝ → ℝ → ℝ) {mu zeta q : ℝ} (hm0 : 0 ≤ mu) (hm1 : mu ≤ 2 * π) (hz : 0 < zeta) :
    (0 ≤ q → q ≤ 1 / 10 ^ 12 → distPpf (cartwright binv) q (mu, zeta) = some 0) ∧
    (1 - 1 / 10 ^ 12 ≤ q → q ≤ 1 → distPpf (cartwright binv) q (mu, zeta) = some (2 * π)) ∧
    (q < 0 ∨ 1 < q → distPpf (cartwright binv) q (mu, zeta) = none) := by
  have h12 : (0 : ℝ) < 1 / 10 ^ 12 := by positivity
  have h12' : (1 : ℝ) / 10 ^ 12 < 1 / 4 := by norm_num
  have harg := cw_arg binv hm0 hm1 hz
  unfold distPpf
  rw [if_neg (not_not.mpr harg)]
  refine ⟨fun a b => ?_, fun a b => ?_, fun h => ?_⟩
  · by_cases h : q = 0
    · rw [if_pos h]
    rw [if_neg h, if_neg (by linarith), if_pos ⟨lt_of_le_of_ne a (Ne.symm h), by linarith⟩]
    show some (cwPpf binv q mu zeta) = _
    unfold cwPpf
    simp only
    rw [if_neg, if_pos]
    · congr 1
      refine (pymod_eq_iff two_pi_pos).2 ⟨le_rfl, two_pi_pos, ?_⟩
      obtain ⟨k, hk⟩ := pymod_form (-(pymod mu (2 * π)))
      exact ⟨-k, by rw [hk]; push_cast; ring⟩
    · unfold isclose
      rw [sub_zero, abs_of_nonneg a, zero_mul, add_zero]; exact b
    · unfold isclose
      rw [abs_of_neg (by linarith), zero_mul, add_zero, not_le]; linarith
  · rw [if_neg (by linarith)]
    by_cases h : q = 1
    · rw [if_pos h]
    rw [if_neg h, if_pos ⟨by linarith, lt_of_le_of_ne b h⟩]
    show some (cwPpf binv q mu zeta) = _
    unfold cwPpf
    simp only
    rw [if_pos]
    unfold isclose
    rw [abs_of_nonpos (by linarith), zero_mul, add_zero]; linarith
  · rw [if_neg (by rcases h with h | h <;> linarith), if_neg (by rcases h with h | h <;> linarith),
      if_neg (by rintro ⟨a, b⟩; rcases h with h | h <;> linarith)]

end Verif
