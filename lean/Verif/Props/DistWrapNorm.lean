import Verif.Lemmas.WrapNormPdf
import Verif.Props.DistJonesPewsey
import Verif.Props.DistCauchy
import Verif.Props.Solver
import Verif.Lemmas.CartwrightCdf
import Verif.Spec.Distribution

/-! # C112: the wrapped normal distribution -/

set_option autoImplicit false

namespace Verif

open Verif.Spec Real MeasureTheory ProbabilityTheory

section density

variable (ndtri : ℝ → ℝ) (f : ℝ → ℝ → ℝ → ℝ)

lemma wn_arg {mu rho : ℝ} (hm0 : 0 ≤ mu) (hm1 : mu ≤ 2 * π) (h0 : 0 < rho) (h1 : rho < 1) :
    (wrapnorm ndtri f).argcheck (mu, rho) := ⟨⟨hm0, hm1⟩, h0, h1⟩

/-- **C112.** The `pdf` method of the wrapped normal distribution with mean resultant length `rho` differs from the sum
of all normal densities wrapped round the circle by at most `rho^900 / (π (1 - rho^61))`; whatever `rho`, its integral
over the circle is 1 and its first trigonometric moment is `rho` in direction `mu`; it is a density if `rho ≤ 0.94`. -/
theorem C112_density {mu rho : ℝ} (hm0 : 0 ≤ mu) (hm1 : mu ≤ 2 * π) (h0 : 0 < rho) (h1 : rho < 1) :
    ∃ g : ℝ → ℝ, (∀ x, RegularAngle x → distPdf (wrapnorm ndtri f) x (mu, rho) = some (g x)) ∧
      (∀ x, |g x - wrappedNormal mu √(-2 * log rho) x| ≤ rho ^ 900 / (π * (1 - rho ^ 61))) ∧
      Continuous g ∧ ∫ x in (0 : ℝ)..(2 * π), g x = 1 ∧
      ∫ x in (0 : ℝ)..(2 * π), cos (x - mu) * g x = rho ∧
      ∫ x in (0 : ℝ)..(2 * π), sin (x - mu) * g x = 0 ∧
      (rho ≤ 94 / 100 → IsCircularDensity g ∧ ∀ x, 0 < g x) := by
  refine ⟨fun x => wnPdf x mu rho, fun x hx => ?_, wnPdf_error h0 h1 mu, wnPdf_continuous mu rho, wnPdf_mass mu rho,
    wnPdf_cos mu rho, wnPdf_sin mu rho, fun h => ⟨⟨fun x _ _ => (wnPdf_pos h0 h mu x).le,
      (wnPdf_continuous mu rho).intervalIntegrable _ _, wnPdf_mass mu rho⟩, wnPdf_pos h0 h mu⟩⟩
  exact distPdf_regular (wrapnorm ndtri f) (wn_arg ndtri f hm0 hm1 h0 h1) hx

/-- **C112.** The sum of the wrapped normal densities is itself a density: positive, of mass 1, symmetric about `mu`. -/
theorem C112_spec {mu sigma : ℝ} (hs : 0 < sigma) :
    IsCircularDensity (wrappedNormal mu sigma) ∧ (∀ x, 0 < wrappedNormal mu sigma x) ∧
      Continuous (wrappedNormal mu sigma) ∧ ∀ d, wrappedNormal mu sigma (mu - d) = wrappedNormal mu sigma (mu + d) :=
  ⟨⟨fun x _ _ => (wn_pos hs mu x).le, (wn_continuous hs mu).intervalIntegrable _ _, wn_mass hs mu⟩, wn_pos hs mu,
    wn_continuous hs mu, wn_symm mu sigma⟩

/-- **C112 (negative).** For every accepted `rho ≥ 0.96` the `pdf` method is negative at the angle opposite to `mu`, and
`logpdf` has no value there. -/
theorem C112_negative {mu rho x : ℝ} (hm0 : 0 ≤ mu) (hm1 : mu ≤ 2 * π) (h0 : 96 / 100 ≤ rho) (h1 : rho < 1)
    (hx : RegularAngle x) (ho : cos (x - mu) = -1) :
    (∃ v, v < 0 ∧ distPdf (wrapnorm ndtri f) x (mu, rho) = some v) ∧ distLogpdf (wrapnorm ndtri f) x (mu, rho) = none := by
  have hneg := wnPdf_opposite_neg h0 h1 ho
  have e := distPdf_regular (wrapnorm ndtri f) (wn_arg ndtri f hm0 hm1 (by linarith) h1) hx
  have e' : distPdf (wrapnorm ndtri f) x (mu, rho) = some (wnPdf x mu rho) := e
  refine ⟨⟨_, hneg, e'⟩, ?_⟩
  unfold distLogpdf
  rw [e']
  simp [hneg.le]

/-- **C112 (negative).** For `rho ≥ 0.9995` the `pdf` method takes values below `-1/2`, close to the centre. -/
theorem C112_far_below {mu rho : ℝ} (hm0 : 0 ≤ mu) (hm1 : mu ≤ 2 * π) (h0 : 9995 / 10000 ≤ rho) (h1 : rho < 1) :
    ∃ x v, (0 ≤ x ∧ x < 2 * π ∧ |x - mu| ≤ 1 / 6) ∧ v < -1 / 2 ∧ distPdf (wrapnorm ndtri f) x (mu, rho) = some v := by
  have hpi := pi_lt_d2
  have hpi' := pi_gt_three
  have harg := wn_arg ndtri f hm0 hm1 (by linarith) h1
  by_cases hmu : mu ≤ π
  · refine ⟨mu + 3 * π / 59, _, ⟨by positivity, by linarith, ?_⟩, wnPdf_neg h0 h1.le (Or.inl rfl),
      distPdf_regular _ harg ⟨by positivity, Or.inl (by norm_num; linarith)⟩⟩
    rw [add_sub_cancel_left, abs_of_pos (by positivity)]
    linarith
  · push Not at hmu
    refine ⟨mu + -(3 * π / 59), _, ⟨by linarith, by linarith, ?_⟩, wnPdf_neg h0 h1.le (Or.inr rfl),
      distPdf_regular _ harg ⟨by linarith, Or.inl (by norm_num; linarith)⟩⟩
    rw [add_sub_cancel_left, abs_neg, abs_of_pos (by positivity)]
    linarith

end density

/-! ## The distribution function -/

lemma wnSigma_eq {rho : ℝ} (h0 : 1 / 10 ^ 12 < rho) (h1 : rho ≤ 1 - 1 / 10 ^ 15) : wnSigma rho = √(-2 * log rho) := by
  have ht : floatTiny ≤ rho := (floatTiny_le_small.trans (by norm_num)).trans h0.le
  unfold wnSigma clip
  rw [max_eq_left ht, min_eq_left h1]

lemma wn_sigma_le {rho : ℝ} (h0 : 1 / 10 ^ 12 < rho) : √(-2 * log rho) ≤ 75 / 10 := by
  have hr : (1 / 2 : ℝ) ^ 40 ≤ rho := le_trans (by norm_num) h0.le
  have h2 : log ((1 / 2 : ℝ) ^ 40) ≤ log rho := log_le_log (by positivity) hr
  rw [log_pow, one_div, log_inv] at h2
  have := log_two_lt_d9
  refine sqrt_le_iff.mpr ⟨by norm_num, ?_⟩
  push_cast at h2
  linarith

lemma wn_integral_uniform {rho : ℝ} (h0 : 0 < rho) (h1 : rho ≤ 1 / 10 ^ 2) (mu : ℝ) {x : ℝ} (hx0 : 0 ≤ x) (hx1 : x ≤ 2 * π) :
    |x / (2 * π) - ∫ t in (0 : ℝ)..x, wrappedNormal mu √(-2 * log rho) t| ≤ 203 / 100 * rho := by
  have h1' : rho < 1 := by linarith
  have hc := wn_continuous (wn_sigma_pos h0 h1') mu
  have hi := hc.intervalIntegrable (μ := volume) 0 x
  have hk := (continuous_const (y := 1 / (2 * π))).intervalIntegrable (μ := volume) (0 : ℝ) x
  have e : x / (2 * π) - ∫ t in (0 : ℝ)..x, wrappedNormal mu √(-2 * log rho) t
      = -∫ t in (0 : ℝ)..x, (wrappedNormal mu √(-2 * log rho) t - 1 / (2 * π)) := by
    rw [intervalIntegral.integral_sub hi hk, intervalIntegral.integral_const, sub_zero, smul_eq_mul]
    ring
  rw [e, abs_neg, ← norm_eq_abs]
  refine (intervalIntegral.norm_integral_le_of_norm_le_const (C := 203 / 100 * rho / (2 * π)) fun t _ => ?_).trans ?_
  · rw [norm_eq_abs]; exact wn_uniform h0 h1 mu t
  · rw [sub_zero, abs_of_nonneg hx0, div_mul_eq_mul_div, div_le_iff₀ two_pi_pos]
    exact mul_le_mul_of_nonneg_left hx1 (by linarith)

lemma not_isclose_two_pi {x : ℝ} (h0 : 0 ≤ x) (h1 : x ≤ 2 * π - 7 / 10 ^ 5) : ¬ isclose x (2 * π) rtolDefault atolDefault := by
  have hpi := pi_lt_d2
  unfold isclose rtolDefault atolDefault
  rw [abs_of_nonpos (by norm_num at h1; linarith), abs_of_pos two_pi_pos]
  norm_num at h1 ⊢
  linarith

/-- **C112.** The `cdf` method is within `3e-12` of the integral of the wrapped normal density from 0, for angles up to
`2π - 7e-5` and `rho` up to `1 - 1e-15`. -/
theorem C112_cdf (ndtri : ℝ → ℝ) (f : ℝ → ℝ → ℝ → ℝ) {mu rho x : ℝ} (hm0 : 0 ≤ mu) (hm1 : mu ≤ 2 * π) (h0 : 0 < rho)
    (h1 : rho ≤ 1 - 1 / 10 ^ 15) (hx0 : 0 ≤ x) (hx1 : x ≤ 2 * π - 7 / 10 ^ 5) :
    ∃ c, distCdf (wrapnorm ndtri f) x (mu, rho) = some c ∧
      |c - ∫ t in (0 : ℝ)..x, wrappedNormal mu √(-2 * log rho) t| ≤ 3 / 10 ^ 12 := by
  have h15 : (0 : ℝ) < 1 / 10 ^ 15 := by positivity
  have h1' : rho < 1 := by linarith
  have harg := wn_arg ndtri f hm0 hm1 h0 h1'
  have h7 : (0 : ℝ) < 7 / 10 ^ 5 := by norm_num
  rcases hx0.eq_or_lt with h | h
  · subst h
    refine ⟨0, ?_, by simp; norm_num⟩
    unfold distCdf
    rw [wrap2pi_zero, if_neg (not_not.mpr harg), if_neg (by linarith [two_pi_pos]), if_neg (lt_irrefl _)]
  · have h14 : (1 : ℝ) / 10 ^ 14 < 7 / 10 ^ 5 := by norm_num
    refine ⟨_, distCdf_inner (wrapnorm ndtri f) (mu, rho) harg h (by linarith), ?_⟩
    show |wnCdf x mu rho - _| ≤ _
    have hw : wrap2pi x = x := wrap2pi_self hx0 (by linarith [wrapTol_lt])
    unfold wnCdf
    simp only
    rw [hw, if_neg (not_isclose_two_pi hx0 hx1)]
    by_cases hr : rho ≤ 1 / 10 ^ 12
    · rw [if_pos hr]
      have h2 := wn_integral_uniform h0 (hr.trans (by norm_num)) mu hx0 (by linarith)
      refine h2.trans ?_
      calc 203 / 100 * rho ≤ 203 / 100 * (1 / 10 ^ 12) := mul_le_mul_of_nonneg_left hr (by norm_num)
        _ ≤ _ := by norm_num
    · rw [if_neg hr, wnSigma_eq (not_le.mp hr) h1]
      exact (wnWrapped_error (wn_sigma_pos h0 h1') (wn_sigma_le (not_le.mp hr)) hx0 (by linarith) hm0 hm1).trans (by norm_num)

/-- **C112 (negative).** From `2π - 6e-5` on the `cdf` method is 1, although the angles still to come have positive
probability. For the most concentrated distribution that the `fit` method returns (`rho = 1 - 1e-9`) centred at 0 this
is more than a fifth. -/
theorem C112_cdf_end (ndtri : ℝ → ℝ) (f : ℝ → ℝ → ℝ → ℝ) {mu rho x : ℝ} (hm0 : 0 ≤ mu) (hm1 : mu ≤ 2 * π) (h0 : 0 < rho)
    (h1 : rho < 1) (hx0 : 2 * π - 6 / 10 ^ 5 ≤ x) (hx1 : x < 2 * π) :
    distCdf (wrapnorm ndtri f) x (mu, rho) = some 1 ∧
      ∫ t in (0 : ℝ)..x, wrappedNormal mu √(-2 * log rho) t < 1 ∧
      (mu = 0 → rho = 1 - 1 / 10 ^ 9 → x = 2 * π - 6 / 10 ^ 5 →
        ∫ t in (0 : ℝ)..x, wrappedNormal mu √(-2 * log rho) t < 4 / 5) := by
  have harg := wn_arg ndtri f hm0 hm1 h0 h1
  have hpi := pi_gt_three
  have hpi' := pi_lt_d2
  have h6 : (6 : ℝ) / 10 ^ 5 < 1 := by norm_num
  have hs := wn_sigma_pos h0 h1
  have hc := wn_continuous hs mu
  have hsplit := intervalIntegral.integral_add_adjacent_intervals (hc.intervalIntegrable (μ := volume) 0 x)
    (hc.intervalIntegrable (μ := volume) x (2 * π))
  rw [wn_mass hs mu] at hsplit
  refine ⟨?_, ?_, ?_⟩
  · by_cases hc : x < 2 * π - wrapTol
    · have hw : wrap2pi x = x := wrap2pi_self (by linarith) hc
      unfold distCdf
      rw [hw, if_neg (not_not.mpr harg), if_neg (by linarith), if_pos (by linarith)]
      show some (wnCdf x mu rho) = some 1
      unfold wnCdf
      simp only
      rw [hw, if_pos]
      unfold isclose rtolDefault atolDefault
      rw [abs_of_nonpos (by linarith), abs_of_pos two_pi_pos]
      norm_num at hx0 ⊢
      linarith [pi_gt_d2]
    · have hw : wrap2pi x = 2 * π := wrap2pi_close (by
        rw [abs_of_nonpos (by linarith)]; linarith [not_lt.mp hc])
      unfold distCdf
      rw [hw, if_neg (not_not.mpr harg), if_pos le_rfl]
  · have := intervalIntegral.intervalIntegral_pos_of_pos (hc.intervalIntegrable (μ := volume) x (2 * π)) (wn_pos hs mu) hx1
    linarith
  · intro hm hr hx
    have hs2 := wn_sigma_sq h0 h1
    obtain ⟨s, hsd⟩ : ∃ s, s = √(-2 * log rho) := ⟨_, rfl⟩
    rw [← hsd] at hs hs2 hsplit hc ⊢
    have hs6 : s ≤ 6 / 10 ^ 5 := by
      have h3 := one_sub_inv_le_log_of_pos h0
      have h4 : rho⁻¹ ≤ 1 + 15 / 10 ^ 10 := by
        rw [inv_le_comm₀ h0 (by norm_num), hr]
        norm_num
      refine abs_le_of_sq_le_sq' ?_ (by norm_num) |>.2
      rw [hs2]
      norm_num at h4 ⊢
      linarith
    have hge : (1 : ℝ) / 5 < ∫ t in x..(2 * π), wrappedNormal mu s t := by
      have hlow : ∀ t ∈ Set.Icc (2 * π - s) (2 * π), 9 / 16 / (s * √(2 * π)) ≤ wrappedNormal mu s t := by
        intro t ht
        rw [wrappedNormal_def, hm]
        refine le_trans ?_ ((gk_summable hs (t - 0)).le_tsum (-1) fun j _ => (gk_pos hs _).le)
        unfold gk
        refine div_le_div_of_nonneg_right ?_ (by positivity)
        have e1 : -(1 / 2 : ℝ) ≤ -(t - 0 + 2 * π * ((-1 : ℤ) : ℝ)) ^ 2 / (2 * s ^ 2) := by
          rw [le_div_iff₀ (by positivity)]
          push_cast
          nlinarith [ht.1, ht.2]
        refine le_trans ?_ (exp_le_exp.mpr e1)
        rw [show -(1 / 2 : ℝ) = -1 / 4 + -1 / 4 by norm_num, exp_add]
        have := add_one_le_exp (-1 / 4 : ℝ)
        nlinarith
      have hnn : 0 ≤ ∫ t in x..(2 * π - s), wrappedNormal mu s t :=
        intervalIntegral.integral_nonneg (by rw [hx]; linarith) fun t _ => (wn_pos hs mu t).le
      have hsp2 := intervalIntegral.integral_add_adjacent_intervals (hc.intervalIntegrable (μ := volume) x (2 * π - s))
        (hc.intervalIntegrable (μ := volume) (2 * π - s) (2 * π))
      have hmono := intervalIntegral.integral_mono_on (μ := volume) (a := 2 * π - s) (b := 2 * π) (by linarith)
        ((continuous_const (y := 9 / 16 / (s * √(2 * π)))).intervalIntegrable _ _) (hc.intervalIntegrable _ _) hlow
      rw [intervalIntegral.integral_const, smul_eq_mul, show 2 * π - (2 * π - s) = s by ring,
        show s * (9 / 16 / (s * √(2 * π))) = 9 / 16 / √(2 * π) by field_simp] at hmono
      have hq : (1 : ℝ) / 5 < 9 / 16 / √(2 * π) := by
        have h5 : √(2 * π) < 28 / 10 := by
          rw [sqrt_lt' (by norm_num)]
          linarith
        rw [lt_div_iff₀ (sqrt_pos.mpr two_pi_pos)]
        linarith
      linarith
    linarith

/-! ## Quantiles -/

lemma wn_pymod (mu sigma x : ℝ) : wrappedNormal (pymod mu (2 * π)) sigma x = wrappedNormal mu sigma x := by
  obtain ⟨k, hk⟩ := pymod_form mu
  have h := (wn_periodic mu sigma).sub_int_mul_eq (x := x) k
  rw [← h, hk, wrappedNormal_def, wrappedNormal_def]
  refine tsum_congr fun j => ?_
  congr 1
  ring

lemma wn_lipschitz {rho : ℝ} (h0 : 0 < rho) (h1 : rho < 1) (mu : ℝ) {a b : ℝ} (hab : a ≤ b) :
    (∫ t in (0 : ℝ)..a, wrappedNormal mu √(-2 * log rho) t) ≤ (∫ t in (0 : ℝ)..b, wrappedNormal mu √(-2 * log rho) t) ∧
    (∫ t in (0 : ℝ)..b, wrappedNormal mu √(-2 * log rho) t) - (∫ t in (0 : ℝ)..a, wrappedNormal mu √(-2 * log rho) t)
      ≤ wrappedNormal mu √(-2 * log rho) mu * (b - a) := by
  have hs := wn_sigma_pos h0 h1
  have hc := wn_continuous hs mu
  have hsplit := intervalIntegral.integral_add_adjacent_intervals (hc.intervalIntegrable (μ := volume) 0 a)
    (hc.intervalIntegrable (μ := volume) a b)
  have hn : 0 ≤ ∫ t in a..b, wrappedNormal mu √(-2 * log rho) t :=
    intervalIntegral.integral_nonneg hab fun t _ => (wn_pos hs mu t).le
  have hm := intervalIntegral.integral_mono_on (μ := volume) hab (hc.intervalIntegrable _ _)
    ((continuous_const (y := wrappedNormal mu √(-2 * log rho) mu)).intervalIntegrable _ _)
    fun t _ => wn_le_peak h0 h1 mu t
  rw [intervalIntegral.integral_const, smul_eq_mul] at hm
  constructor
  · linarith
  · rw [mul_comm (b - a)] at hm; linarith

lemma wnGuess_mem (ndtri : ℝ → ℝ) {q mu sigma : ℝ} : 0 ≤ wnGuess ndtri q mu sigma ∧ wnGuess ndtri q mu sigma < 2 * π := by
  have hpi := pi_gt_three
  have h12 : (0 : ℝ) < 1 / 10 ^ 12 := by positivity
  have h12' : (1 : ℝ) / 10 ^ 12 < 1 := by norm_num
  have a : 0 ≤ clip (2 * π * q) (1 / 10 ^ 12) (2 * π - 1 / 10 ^ 12) :=
    le_min (h12.le.trans (le_max_right _ _)) (by linarith)
  have b : clip (2 * π * q) (1 / 10 ^ 12) (2 * π - 1 / 10 ^ 12) < 2 * π :=
    (min_le_right _ _).trans_lt (by linarith)
  unfold wnGuess
  simp only
  split_ifs
  · have c := pymod_nonneg two_pi_pos (mu + sigma * ndtri (clip q (1 / 10 ^ 12) (1 - 1 / 10 ^ 12)))
    have d := pymod_lt two_pi_pos (mu + sigma * ndtri (clip q (1 / 10 ^ 12) (1 - 1 / 10 ^ 12)))
    constructor <;> linarith
  · exact ⟨a, b⟩

/-- **C112.** Quantiles: for every starting value and whatever slopes the Newton steps use, the mass of the wrapped
normal density below `ppf(q)` is within `3e-12 + 4e-12 M` of `q`, where `M` is the largest value of the density. -/
theorem C112_ppf (ndtri : ℝ → ℝ) (f : ℝ → ℝ → ℝ → ℝ) {mu rho q : ℝ} (hm0 : 0 ≤ mu) (hm1 : mu ≤ 2 * π) (h0 : 0 < rho)
    (h1 : rho ≤ 1 - 1 / 10 ^ 15) (hq0 : 0 < q) (hq1 : q < 1) :
    ∃ theta, distPpf (wrapnorm ndtri f) q (mu, rho) = some theta ∧ 0 ≤ theta ∧ theta < 2 * π ∧
      |(∫ t in (0 : ℝ)..theta, wrappedNormal mu √(-2 * log rho) t) - q|
        ≤ 3 / 10 ^ 12 + 4 / 10 ^ 12 * wrappedNormal mu √(-2 * log rho) mu := by
  have h15 : (0 : ℝ) < 1 / 10 ^ 15 := by positivity
  have h1' : rho < 1 := by linarith
  have harg := wn_arg ndtri f hm0 hm1 h0 h1'
  have hs := wn_sigma_pos h0 h1'
  have hpi := pi_gt_three
  have hpi' := pi_lt_d2
  obtain ⟨M, hM⟩ : ∃ M, M = wrappedNormal mu √(-2 * log rho) mu := ⟨_, rfl⟩
  have hM0 : 0 < M := hM ▸ wn_pos hs mu mu
  refine ⟨wnPpf ndtri f q mu rho, ?_, ?_⟩
  · unfold distPpf
    rw [if_neg (not_not.mpr harg), if_neg hq0.ne', if_neg hq1.ne, if_pos ⟨hq0, hq1⟩]
    rfl
  rw [← hM]
  unfold wnPpf
  simp only
  rw [if_neg (not_le.mpr hq0), if_neg (not_le.mpr hq1)]
  by_cases hr : rho ≤ 1 / 10 ^ 12
  · rw [if_pos hr]
    have hle : 2 * π * q ≤ 2 * π := by nlinarith
    refine ⟨by positivity, by nlinarith, ?_⟩
    have h2 := wn_integral_uniform h0 (hr.trans (by norm_num)) mu (x := 2 * π * q) (by positivity) hle
    rw [mul_div_cancel_left₀ _ two_pi_pos.ne', abs_sub_comm] at h2
    refine h2.trans ?_
    have : 203 / 100 * rho ≤ 203 / 100 * (1 / 10 ^ 12) := mul_le_mul_of_nonneg_left hr (by norm_num)
    norm_num at this ⊢
    linarith
  rw [if_neg hr]
  push Not at hr
  have hsg : ¬ wnSigma rho ≤ 1 / 10 ^ 12 := by
    rw [wnSigma_eq hr h1]
    push Not
    refine lt_sqrt_of_sq_lt ?_
    have := log_le_sub_one_of_pos h0
    norm_num at h1 ⊢
    linarith
  rw [if_neg hsg, wnSigma_eq hr h1]
  obtain ⟨m, hm⟩ : ∃ m, m = pymod mu (2 * π) := ⟨_, rfl⟩
  have m0 : 0 ≤ m := hm ▸ pymod_nonneg two_pi_pos mu
  have m1 : m < 2 * π := hm ▸ pymod_lt two_pi_pos mu
  rw [← hm]
  obtain ⟨sol, hsol⟩ : ∃ sol, sol = wnSolve (fun theta => wnWrapped theta m √(-2 * log rho))
    (fun theta => f theta m √(-2 * log rho)) (fun y => clip y 0 (2 * π)) 6 40 [(q, wnGuess ndtri q m √(-2 * log rho))] :=
    ⟨_, rfl⟩
  rw [← hsol]
  obtain ⟨hlen, hall⟩ := C82_wrapnorm_solver (fun theta => wnWrapped theta m √(-2 * log rho))
    (fun theta => f theta m √(-2 * log rho)) (fun y => clip y 0 (2 * π))
    (fun x a b => by unfold clip; rw [max_eq_left a, min_eq_left b.le]) 6 40 [(q, wnGuess ndtri q m √(-2 * log rho))]
    (fun p hp => by rw [List.mem_singleton] at hp; subst hp; exact wnGuess_mem ndtri)
  rw [← hsol] at hlen hall
  obtain ⟨th, hth⟩ : ∃ th, sol = [th] := List.length_eq_one_iff.mp hlen
  have hsq := hall 0 q (wnGuess ndtri q m √(-2 * log rho)) th rfl (by rw [hth]; rfl)
  obtain ⟨⟨t0, t1⟩, hcase⟩ := hsq
  have hcl : clip (sol.headD 0) 0 (2 * π) = th := by
    rw [hth]
    unfold clip
    rw [List.headD_cons, max_eq_left t0, min_eq_left t1.le]
  rw [hcl]
  obtain ⟨I, hI⟩ : ∃ I : ℝ → ℝ, I = fun x => ∫ t in (0 : ℝ)..x, wrappedNormal mu √(-2 * log rho) t := ⟨_, rfl⟩
  have hIx : ∀ x, ∫ t in (0 : ℝ)..x, wrappedNormal mu √(-2 * log rho) t = I x := fun x => by rw [hI]
  have herr : ∀ x, 0 ≤ x → x ≤ 2 * π → |wnWrapped x m √(-2 * log rho) - I x| ≤ 1 / 2 * (1 / 10 ^ 12) := by
    intro x a b
    have := wnWrapped_error hs (wn_sigma_le hr) a b m0 m1.le
    rw [hm] at this
    simp only [wn_pymod] at this
    rw [← hIx, hm]
    exact this
  have hlip : ∀ a b, a ≤ b → I a ≤ I b ∧ I b - I a ≤ M * (b - a) := fun a b h => by
    rw [← hIx, ← hIx, hM]; exact wn_lipschitz h0 h1' mu h
  have hI0 : I 0 = 0 := by rw [hI]; simp
  have hI1 : I (2 * π) = 1 := by rw [hI]; exact wn_mass hs mu
  have key : |I th - q| ≤ 3 / 2 * (1 / 10 ^ 12) + M * (3 / 10 ^ 12) := by
    have hp : 0 ≤ M * (3 / 10 ^ 12) := by positivity
    rcases hcase with h | ⟨L, H, p1, p2, p3, p4, p5, p6, p7⟩
    · have := herr th t0 t1.le
      have h' : |wnWrapped th m √(-2 * log rho) - q| ≤ 1 / 10 ^ 12 := h
      have h3 := abs_sub_le (I th) (wnWrapped th m √(-2 * log rho)) q
      rw [abs_sub_comm (I th) (wnWrapped th m √(-2 * log rho))] at h3
      refine (h3.trans (add_le_add this h')).trans ?_
      linarith
    · have hL : I L ≤ q + 1 / 2 * (1 / 10 ^ 12) := by
        rcases p6 with e | e
        · rw [e, hI0]; positivity
        · have := (abs_le.mp (herr L p1 (p2.trans p3))).1
          simp only at e
          linarith
      have hH : q - 1 / 2 * (1 / 10 ^ 12) ≤ I H := by
        have h12 : (0 : ℝ) < 1 / 2 * (1 / 10 ^ 12) := by positivity
        rcases p7 with e | e
        · rw [e, hI1]; linarith
        · have := (abs_le.mp (herr H (p1.trans p2) p3)).2
          simp only at e
          linarith
      have hw : (H - L) / 2 ≤ 3 / 10 ^ 12 := by
        have : 2 * π / 2 ^ 40 ≤ 6 / 10 ^ 12 := by
          rw [div_le_iff₀ (by positivity)]
          norm_num
          linarith
        norm_num at this p4 ⊢
        linarith
      have a := hlip L th (by linarith)
      have b := hlip th H (by linarith)
      have c1 : M * (th - L) ≤ M * (3 / 10 ^ 12) := mul_le_mul_of_nonneg_left (by rw [p5]; linarith) hM0.le
      have c2 : M * (H - th) ≤ M * (3 / 10 ^ 12) := mul_le_mul_of_nonneg_left (by rw [p5]; linarith) hM0.le
      rw [abs_le]
      have h12 : (0 : ℝ) < 1 / 10 ^ 12 := by positivity
      constructor <;> linarith [a.2, b.2]
  rw [hIx]
  have h12 : (0 : ℝ) < 1 / 10 ^ 12 := by positivity
  have e3 : (3 : ℝ) / 10 ^ 12 = 3 * (1 / 10 ^ 12) := by ring
  have e4 : (4 : ℝ) / 10 ^ 12 = 4 * (1 / 10 ^ 12) := by ring
  rw [e3] at key
  rw [e3, e4]
  by_cases hend : 2 * π - 1 / 10 ^ 12 ≤ th
  · rw [if_pos hend]
    have h50 : (0 : ℝ) < 1 / 2 ^ 50 := by positivity
    have h50' : (1 : ℝ) / 2 ^ 50 ≤ 1 / 10 ^ 12 := by norm_num
    have h50'' : (1 : ℝ) / 2 ^ 50 < 1 := by norm_num
    refine ⟨by linarith, by linarith, ?_⟩
    have hmv : |I (2 * π - 1 / 2 ^ 50) - I th| ≤ M * (1 / 10 ^ 12) := by
      rcases le_total th (2 * π - 1 / 2 ^ 50) with h | h
      · obtain ⟨a, b⟩ := hlip _ _ h
        rw [abs_of_nonneg (by linarith)]
        exact b.trans (mul_le_mul_of_nonneg_left (by linarith) hM0.le)
      · obtain ⟨a, b⟩ := hlip _ _ h
        rw [abs_of_nonpos (by linarith)]
        have : M * (th - (2 * π - 1 / 2 ^ 50)) ≤ M * (1 / 10 ^ 12) := mul_le_mul_of_nonneg_left (by linarith) hM0.le
        linarith
    have h3 := abs_sub_le (I (2 * π - 1 / 2 ^ 50)) (I th) q
    nlinarith
  · rw [if_neg hend]
    refine ⟨t0, t1, ?_⟩
    nlinarith

/-! ## Non-vacuity -/

example : RegularAngle (4 : ℝ) ∧ (4 : ℝ) ≤ 2 * π - 7 / 10 ^ 5 ∧ (0 : ℝ) < 1 / 2 ∧ (1 / 2 : ℝ) ≤ 1 - 1 / 10 ^ 15 := by
  have := pi_gt_three
  refine ⟨⟨by norm_num, Or.inl (by norm_num; linarith)⟩, by norm_num; linarith, by norm_num, by norm_num⟩

example : RegularAngle π ∧ cos (π - 0) = -1 := by
  have := pi_gt_three
  exact ⟨⟨pi_pos.le, Or.inl (by norm_num; linarith)⟩, by simp⟩

end Verif
