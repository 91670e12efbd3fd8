import Verif.Lemmas.VonMises
import Verif.Props.DistCauchy
import Verif.Props.DistSimpleB
import Mathlib.Analysis.Complex.ExponentialBounds

/-! # Property C76: the von Mises distribution -/

set_option autoImplicit false

namespace Verif

open Real Verif.Spec MeasureTheory

theorem vm_isCircularDensity (mu kappa : ℝ) : IsCircularDensity fun x => vmPdf x mu kappa := by
  refine ⟨fun x _ _ => (vmPdf_pos x mu kappa).le, (vmPdf_cont mu kappa).intervalIntegrable _ _, ?_⟩
  rw [vmPdf_integral, show 2 * π - mu = 0 - mu + 2 * π by ring, (vmK_arc kappa).add_two_pi]; ring

/-- **C76.** For every accepted `(mu, kappa)` the von Mises object has the density
`exp(κ cos(x - μ)) / (2π I₀(κ))`, with `I₀(κ) = (1/π) ∫₀^π exp(κ cos t) dt`; it has total mass 1, is
symmetric about `mu`, largest at `mu`, and `logpdf` is its logarithm. -/
theorem C76_density {numCdf : ℝ → ℝ → ℝ → ℝ} {mu kappa : ℝ} (hm0 : 0 ≤ mu) (hm1 : mu ≤ 2 * π)
    (hk : 0 < kappa) :
    let f := fun x => exp (kappa * cos (x - mu))
      / (2 * π * (1 / π * ∫ t in (0 : ℝ)..π, exp (kappa * cos t)))
    IsCircularDensity f ∧ (∀ x, 0 < f x) ∧ (∀ d, f (mu + d) = f (mu - d)) ∧ (∀ x, f x ≤ f mu) ∧
    (∀ x, RegularAngle x → distPdf (vonmises numCdf) x (mu, kappa) = some (f x)) ∧
    (∀ x, RegularAngle x → distLogpdf (vonmises numCdf) x (mu, kappa) = some (log (f x))) ∧
    (∀ x, vmLogpdf x mu kappa = log (f x)) := by
  have hI : (1 / π * ∫ t in (0 : ℝ)..π, exp (kappa * cos t)) = besselI 0 kappa := by
    unfold besselI; simp
  have hI0 := besselI_zero_pos kappa
  have hpi := pi_pos
  intro f
  have hf : f = fun x => vmPdf x mu kappa := by
    funext x; show _ / (2 * π * _) = _; rw [hI]; rfl
  have hpdf : ∀ x, RegularAngle x → distPdf (vonmises numCdf) x (mu, kappa) = some (f x) := by
    intro x hx
    have hw : wrap2pi x = x := by
      obtain ⟨a, b | b⟩ := hx
      · exact wrap2pi_self a (by linarith [wrapTol_lt])
      · rw [b]; exact wrap2pi_two_pi
    have harg : (vonmises numCdf).argcheck (mu, kappa) := ⟨⟨hm0, hm1⟩, hk⟩
    have hmem := wrap2pi_mem x
    unfold distPdf
    rw [if_neg (not_not.mpr harg), if_pos hmem, hw, hf]
    rfl
  refine ⟨hf ▸ vm_isCircularDensity mu kappa, fun x => by rw [hf]; exact vmPdf_pos x mu kappa, ?_, ?_,
    hpdf, ?_, ?_⟩
  · intro d
    rw [hf]
    simp only [vmPdf]
    rw [show mu + d - mu = d by ring, show mu - d - mu = -d by ring, cos_neg]
  · intro x
    rw [hf]
    simp only [vmPdf]
    rw [sub_self, cos_zero]
    gcongr
    exact cos_le_one _
  · intro x hx
    unfold distLogpdf
    rw [hpdf x hx, Option.bind_some, if_neg]
    rw [hf]; exact not_le.mpr (vmPdf_pos x mu kappa)
  · intro x
    rw [hf]
    simp only [vmPdf, vmLogpdf]
    rw [log_div (exp_pos _).ne' (by positivity), log_exp]

/-! ## Moments -/

/-- Trigonometric moments from those about `mu`. -/
theorem trigMoment_about {f : ℝ → ℝ} (hf : Continuous f) (mu R : ℝ) (p : ℕ)
    (hC : ∫ x in (0 : ℝ)..(2 * π), f x * cos (p * (x - mu)) = R)
    (hS : ∫ x in (0 : ℝ)..(2 * π), f x * sin (p * (x - mu)) = 0) :
    (⟨∫ x in (0 : ℝ)..(2 * π), f x * cos (p * x), ∫ x in (0 : ℝ)..(2 * π), f x * sin (p * x)⟩ : ℂ)
      = R * Complex.exp ((p * mu : ℝ) * Complex.I) := by
  have hi : ∀ g : ℝ → ℝ, Continuous g →
      IntervalIntegrable (fun x => f x * g x) volume 0 (2 * π) :=
    fun g hg => (hf.mul hg).intervalIntegrable _ _
  rw [Complex.exp_mul_I, ← Complex.ofReal_cos, ← Complex.ofReal_sin]
  apply Complex.ext
  · have : (↑R * (↑(cos (p * mu)) + ↑(sin (p * mu)) * Complex.I) : ℂ).re = R * cos (p * mu) := by
      simp only [Complex.mul_re, Complex.add_re, Complex.add_im, Complex.mul_im, Complex.ofReal_re,
        Complex.ofReal_im, Complex.I_re, Complex.I_im]; ring
    rw [this]
    show ∫ x in (0 : ℝ)..(2 * π), f x * cos (p * x) = _
    have e : ∀ x : ℝ, f x * cos (p * x)
        = cos (p * mu) * (f x * cos (p * (x - mu))) - sin (p * mu) * (f x * sin (p * (x - mu))) := by
      intro x
      rw [show cos (p * x) = cos (p * (x - mu) + p * mu) by congr 1; ring, cos_add]; ring
    simp only [e]
    rw [intervalIntegral.integral_sub ((hi _ (by fun_prop)).const_mul _)
      ((hi _ (by fun_prop)).const_mul _), intervalIntegral.integral_const_mul,
      intervalIntegral.integral_const_mul, hC, hS]; ring
  · have : (↑R * (↑(cos (p * mu)) + ↑(sin (p * mu)) * Complex.I) : ℂ).im = R * sin (p * mu) := by
      simp only [Complex.mul_re, Complex.add_re, Complex.add_im, Complex.mul_im, Complex.ofReal_re,
        Complex.ofReal_im, Complex.I_re, Complex.I_im]; ring
    rw [this]
    show ∫ x in (0 : ℝ)..(2 * π), f x * sin (p * x) = _
    have e : ∀ x : ℝ, f x * sin (p * x)
        = cos (p * mu) * (f x * sin (p * (x - mu))) + sin (p * mu) * (f x * cos (p * (x - mu))) := by
      intro x
      rw [show sin (p * x) = sin (p * (x - mu) + p * mu) by congr 1; ring, sin_add]; ring
    simp only [e]
    rw [intervalIntegral.integral_add ((hi _ (by fun_prop)).const_mul _)
      ((hi _ (by fun_prop)).const_mul _), intervalIntegral.integral_const_mul,
      intervalIntegral.integral_const_mul, hC, hS]; ring

/-- The integral over one period centred at `mu` of an even periodic function. -/
theorem period_even {g : ℝ → ℝ} (hg : Continuous g) (hper : Function.Periodic g (2 * π))
    (heven : ∀ t, g (-t) = g t) (mu : ℝ) :
    ∫ x in (0 : ℝ)..(2 * π), g (x - mu) = 2 * ∫ t in (0 : ℝ)..π, g t := by
  rw [intervalIntegral.integral_comp_sub_right, show 2 * π - mu = 0 - mu + 2 * π by ring,
    hper.intervalIntegral_add_eq (0 - mu) (-π), show -π + 2 * π = π by ring,
    ← intervalIntegral.integral_add_adjacent_intervals (hg.intervalIntegrable (-π) 0)
      (hg.intervalIntegrable 0 π)]
  have := intervalIntegral.integral_comp_neg (fun t => g t) (a := 0) (b := π)
  simp only [heven, neg_zero] at this
  rw [← this]; ring

/-- The same for an odd function. -/
theorem period_odd {g : ℝ → ℝ} (hg : Continuous g) (hper : Function.Periodic g (2 * π))
    (hodd : ∀ t, g (-t) = -g t) (mu : ℝ) : ∫ x in (0 : ℝ)..(2 * π), g (x - mu) = 0 := by
  rw [intervalIntegral.integral_comp_sub_right, show 2 * π - mu = 0 - mu + 2 * π by ring,
    hper.intervalIntegral_add_eq (0 - mu) (-π), show -π + 2 * π = π by ring,
    ← intervalIntegral.integral_add_adjacent_intervals (hg.intervalIntegrable (-π) 0)
      (hg.intervalIntegrable 0 π)]
  have := intervalIntegral.integral_comp_neg (fun t => g t) (a := 0) (b := π)
  simp only [hodd, neg_zero, intervalIntegral.integral_neg] at this
  rw [← this]; ring

theorem vm_trigMoment (numCdf : ℝ → ℝ → ℝ → ℝ) (mu kappa : ℝ) (p : ℕ) :
    distTrigMoment (vonmises numCdf) p (mu, kappa)
      = (besselI p kappa / besselI 0 kappa : ℝ) * Complex.exp ((p * mu : ℝ) * Complex.I) := by
  have hI0 := besselI_zero_pos kappa
  have hpi := pi_pos
  have pc : ∀ t : ℝ, cos (p * (t + 2 * π)) = cos (p * t) := fun t => by
    rw [mul_add, show (p : ℝ) * (2 * π) = p * (2 * π) from rfl, cos_add_nat_mul_two_pi]
  have ps : ∀ t : ℝ, sin (p * (t + 2 * π)) = sin (p * t) := fun t => by
    rw [mul_add, sin_add_nat_mul_two_pi]
  apply trigMoment_about (vmPdf_cont mu kappa)
  · have h := period_even (g := fun t => vmPdf t 0 kappa * cos (p * t)) (mu := mu)
      ((vmPdf_cont 0 kappa).mul (by fun_prop))
      (fun t => by simp only [vmPdf, sub_zero, cos_add_two_pi, pc])
      (fun t => by simp only [vmPdf, sub_zero, cos_neg, mul_neg])
    simp only [← vmPdf_shift] at h
    rw [h]
    have e : ∀ t, vmPdf t 0 kappa * cos (p * t)
        = 1 / (2 * π * besselI 0 kappa) * (exp (kappa * cos t) * cos (p * t)) := by
      intro t; unfold vmPdf; rw [sub_zero]; ring
    simp only [e]
    rw [intervalIntegral.integral_const_mul, besselI_pi]
    field_simp
  · have h := period_odd (g := fun t => vmPdf t 0 kappa * sin (p * t)) (mu := mu)
      ((vmPdf_cont 0 kappa).mul (by fun_prop))
      (fun t => by simp only [vmPdf, sub_zero, cos_add_two_pi, ps])
      (fun t => by simp only [vmPdf, sub_zero, cos_neg, mul_neg, sin_neg])
    simpa only [← vmPdf_shift] using h

/-- **C76.** The first trigonometric moment is `(I₁/I₀) e^{iμ}`, with `0 < I₁/I₀ < 1`; the closed forms
of `mean()`, `var()` and `std()` describe that moment: `mean()` is its direction, `var()` is one minus
its length `R`, `std()` is `√(-2 ln R)`. More generally the `p`-th moment is `(I_p/I₀) e^{ipμ}`. -/
theorem C76_moments {numCdf : ℝ → ℝ → ℝ → ℝ} {mu kappa : ℝ} (hk : 0 < kappa) :
    let m := fun p => distTrigMoment (vonmises numCdf) p (mu, kappa)
    (∀ p, m p = (besselI p kappa / besselI 0 kappa : ℝ) * Complex.exp ((p * mu : ℝ) * Complex.I)) ∧
    0 < besselI 1 kappa / besselI 0 kappa ∧ besselI 1 kappa / besselI 0 kappa < 1 ∧
    SameDir (vmMean mu kappa) (Complex.arg (m 1)) ∧
    vmVar mu kappa = 1 - ‖m 1‖ ∧ vmStd mu kappa = sqrt (-2 * log ‖m 1‖) := by
  have hI0 := besselI_zero_pos kappa
  have hI1 := besselI_pos 1 hk
  have hlt := bessel_lt 0 hk
  rw [zero_add] at hlt
  have hr : 0 < besselI 1 kappa / besselI 0 kappa := div_pos hI1 hI0
  intro m
  have hm1 : m 1 = (besselI 1 kappa / besselI 0 kappa : ℝ) * Complex.exp (mu * Complex.I) := by
    have := vm_trigMoment numCdf mu kappa 1
    rw [Nat.cast_one, one_mul] at this
    exact this
  have hn : ‖m 1‖ = besselI 1 kappa / besselI 0 kappa := by
    rw [hm1, norm_mul, Complex.norm_exp_ofReal_mul_I, mul_one, Complex.norm_real,
      norm_of_nonneg hr.le]
  refine ⟨fun p => vm_trigMoment numCdf mu kappa p, hr, (div_lt_one hI0).mpr hlt, ?_, ?_, ?_⟩
  · rw [hm1, Complex.arg_real_mul _ hr]
    unfold vmMean
    have := Complex.norm_mul_exp_arg_mul_I (Complex.exp (mu * Complex.I))
    rw [Complex.norm_exp_ofReal_mul_I, Complex.ofReal_one, one_mul] at this
    obtain ⟨k, hk⟩ := Complex.exp_eq_exp_iff_exists_int.mp this
    refine ⟨-k, ?_⟩
    have h2 := congrArg Complex.im hk
    simp only [Complex.mul_im, Complex.ofReal_re, Complex.I_im, mul_one, Complex.ofReal_im,
      Complex.I_re, mul_zero, add_zero, Complex.add_im, Complex.intCast_re, Complex.intCast_im,
      Complex.mul_re, zero_mul, sub_zero, Complex.re_ofNat, Complex.im_ofNat] at h2
    push_cast
    linarith
  · rw [hn]; rfl
  · rw [hn]; rfl

/-- **C76.** `median()` returns `mu`: the half circle after `mu` and the half circle before it carry
probability 1/2 each, and no other axis with the density higher at its start does better: `mu` is where
the density is largest. -/
theorem C76_median {mu kappa : ℝ} :
    (∫ t in (vmMean mu kappa)..(vmMean mu kappa + π), vmPdf t mu kappa = 1 / 2) ∧
    (∫ t in (vmMean mu kappa - π)..(vmMean mu kappa), vmPdf t mu kappa = 1 / 2) := by
  have h := vmK_arc kappa
  unfold vmMean
  constructor
  · rw [vmPdf_integral, show mu + π - mu = π by ring, sub_self, h.half, h.zero]; ring
  · rw [vmPdf_integral, show mu - π - mu = -π by ring, sub_self, h.neg, h.half, h.zero]; ring

/-- The differential entropy of the density: `ln(2π I₀) - κ I₁/I₀`. -/
theorem vm_entropy_true {mu kappa : ℝ} :
    -∫ x in (0 : ℝ)..(2 * π), vmPdf x mu kappa * log (vmPdf x mu kappa)
      = log (2 * π) + log (besselI 0 kappa) - kappa * besselI 1 kappa / besselI 0 kappa := by
  have hI0 := besselI_zero_pos kappa
  have hpi := pi_pos
  have hmass := (vm_isCircularDensity mu kappa).mass
  have hc : ∫ x in (0 : ℝ)..(2 * π), vmPdf x mu kappa * cos (x - mu)
      = besselI 1 kappa / besselI 0 kappa := by
    have h := period_even (g := fun t => vmPdf t 0 kappa * cos t) (mu := mu)
      ((vmPdf_cont 0 kappa).mul (by fun_prop))
      (fun t => by simp only [vmPdf, sub_zero, cos_add_two_pi])
      (fun t => by simp only [vmPdf, sub_zero, cos_neg])
    simp only [← vmPdf_shift] at h
    rw [h]
    have e : ∀ t, vmPdf t 0 kappa * cos t
        = 1 / (2 * π * besselI 0 kappa) * (exp (kappa * cos t) * cos ((1 : ℕ) * t)) := by
      intro t; unfold vmPdf; rw [sub_zero, Nat.cast_one, one_mul]; ring
    simp only [e]
    rw [intervalIntegral.integral_const_mul, besselI_pi]
    field_simp
  have hl : ∀ x, vmPdf x mu kappa * log (vmPdf x mu kappa)
      = kappa * (vmPdf x mu kappa * cos (x - mu))
        - log (2 * π * besselI 0 kappa) * vmPdf x mu kappa := by
    intro x
    have : log (vmPdf x mu kappa) = kappa * cos (x - mu) - log (2 * π * besselI 0 kappa) := by
      unfold vmPdf; rw [log_div (exp_pos _).ne' (by positivity), log_exp]
    rw [this]; ring
  simp only [hl]
  have hcont := vmPdf_cont mu kappa
  have hi1 : IntervalIntegrable (fun x => kappa * (vmPdf x mu kappa * cos (x - mu))) volume 0 (2 * π) :=
    Continuous.intervalIntegrable (by fun_prop) _ _
  rw [intervalIntegral.integral_sub hi1 ((hcont.intervalIntegrable _ _).const_mul _), intervalIntegral.integral_const_mul,
    intervalIntegral.integral_const_mul, hmass, hc, log_mul two_pi_pos.ne' hI0.ne']
  ring

/-- **C76 (negative).** `entropy()` does not return the entropy of the density: the returned number
plus the entropy is always `ln 2π`. The sign and the constant are wrong; the two differ for every
`kappa` up to 1. -/
theorem C76_entropy {mu kappa : ℝ} :
    vmEntropy mu kappa + -∫ x in (0 : ℝ)..(2 * π), vmPdf x mu kappa * log (vmPdf x mu kappa)
      = log (2 * π) ∧
    (0 < kappa → kappa ≤ 1 →
      vmEntropy mu kappa ≠ -∫ x in (0 : ℝ)..(2 * π), vmPdf x mu kappa * log (vmPdf x mu kappa)) := by
  have h1 : vmEntropy mu kappa + -∫ x in (0 : ℝ)..(2 * π), vmPdf x mu kappa * log (vmPdf x mu kappa)
      = log (2 * π) := by
    rw [vm_entropy_true]; unfold vmEntropy; ring
  refine ⟨h1, ?_⟩
  intro hk hk1 heq
  have hI0 := besselI_zero_pos kappa
  have hr := bessel_ratio_le 0 hk
  rw [zero_add] at hr
  norm_num at hr
  have ht := vm_entropy_true (mu := mu) (kappa := kappa)
  -- ln I₀ ≥ 0
  have hI1 : 1 ≤ besselI 0 kappa := by
    have h := besselI_hasSum 0 kappa
    have hpi := pi_pos
    unfold besselI
    have hge : ∫ t in (0 : ℝ)..π, (1 + kappa * cos t) ≤ ∫ t in (0 : ℝ)..π,
        exp (kappa * cos t) * cos (((0 : ℕ) : ℝ) * t) := by
      apply intervalIntegral.integral_mono_on hpi.le
        ((by fun_prop : Continuous fun t : ℝ => 1 + kappa * cos t).intervalIntegrable _ _)
        ((bessel_cont 0 kappa).intervalIntegrable _ _)
      intro t _
      rw [Nat.cast_zero, zero_mul, cos_zero, mul_one]
      linarith [add_one_le_exp (kappa * cos t)]
    rw [intervalIntegral.integral_add intervalIntegrable_const
      ((by fun_prop : Continuous fun t : ℝ => kappa * cos t).intervalIntegrable _ _),
      intervalIntegral.integral_const, intervalIntegral.integral_const_mul, integral_cos, sin_pi,
      sin_zero] at hge
    simp only [sub_zero, smul_eq_mul, mul_one, mul_zero, add_zero] at hge
    rw [one_div, ← div_eq_inv_mul, le_div_iff₀ hpi, one_mul]
    exact hge
  have hlog : 0 ≤ log (besselI 0 kappa) := log_nonneg hI1
  have hterm : kappa * besselI 1 kappa / besselI 0 kappa ≤ 1 / 2 := by
    rw [mul_div_assoc]
    have : 0 < besselI 1 kappa / besselI 0 kappa := div_pos (besselI_pos 1 hk) hI0
    nlinarith
  have h2pi : (1 : ℝ) < log (2 * π) := by
    rw [lt_log_iff_exp_lt two_pi_pos]
    linarith [exp_one_lt_d9, pi_gt_three]
  rw [← heq] at h1
  linarith

/-! ## The distribution function -/

theorem clip_dist (a b : ℝ) (hb0 : 0 ≤ b) (hb1 : b ≤ 1) : |clip a 0 1 - b| ≤ |a - b| := by
  unfold clip
  rcases le_total a 0 with h | h
  · rw [max_eq_right h, min_eq_left zero_le_one, abs_of_nonpos (by linarith),
      abs_of_nonpos (by linarith)]; linarith
  · rw [max_eq_left h]
    rcases le_total a 1 with h1 | h1
    · rw [min_eq_left h1]
    · rw [min_eq_right h1, abs_of_nonneg (by linarith), abs_of_nonneg (by linarith)]; linarith

theorem vmCdf_series {numCdf : ℝ → ℝ → ℝ → ℝ} {mu kappa x : ℝ} (hk : 1 / 10 ^ 9 ≤ kappa)
    (hx0 : 0 ≤ x) (hx1 : x ≤ 2 * π - 7 / 10 ^ 5)
    (hconv : ∃ r, vmLoop kappa (wrapPi (x - mu)) (wrapPi (-mu)) 500 1 0 0 = some r) :
    |vmCdf numCdf x mu kappa - ∫ t in (0 : ℝ)..x, vmPdf t mu kappa| ≤ 16 / 10 ^ 12 := by
  have hpi := pi_gt_three
  have hpi2 := pi_lt_d2
  have hk0 : 0 < kappa := lt_of_lt_of_le (by norm_num) hk
  have h5 : (0 : ℝ) < 7 / 10 ^ 5 := by norm_num
  have hw : wrap2pi x = x := wrap2pi_self hx0 (by
    have := wrapTol_lt
    have : (1 : ℝ) / 10 ^ 14 < 7 / 10 ^ 5 := by norm_num
    linarith)
  have hcl : ¬ isclose x (2 * π) rtolDefault atolDefault := by
    unfold isclose rtolDefault atolDefault
    rw [abs_of_neg (by linarith), abs_of_pos two_pi_pos, not_le]
    norm_num at hx1 ⊢
    linarith
  obtain ⟨⟨s, sb⟩, hr⟩ := hconv
  obtain ⟨N, hN0, hN1, hc, e1, e2⟩ := vmLoop_spec hk0 500 0 0 0 _ hr (by simp) (by simp)
  have t1 := vm_tail hk0 hN0 (by omega) hc (wrapPi (x - mu))
  have t2 := vm_tail hk0 hN0 (by omega) hc (wrapPi (-mu))
  rw [← e1] at t1
  rw [← e2] at t2
  simp only at t1 t2
  have hred := arc_reduce (vmK_arc kappa).add_int (mu := mu) hx0 (by linarith : x < 2 * π)
  rw [← vmPdf_integral mu kappa 0 x] at hred
  have hI0 : 0 ≤ ∫ t in (0 : ℝ)..x, vmPdf t mu kappa :=
    intervalIntegral.integral_nonneg hx0 fun t _ => (vmPdf_pos t mu kappa).le
  have hI1 : ∫ t in (0 : ℝ)..x, vmPdf t mu kappa ≤ 1 := by
    have hm := (vmK_mono kappa).monotone (by linarith : x - mu ≤ 0 - mu + 2 * π)
    rw [(vmK_arc kappa).add_two_pi] at hm
    rw [vmPdf_integral]; linarith
  unfold vmCdf
  simp only
  rw [hw, if_neg (not_lt.mpr hk), hr]
  simp only
  rw [if_neg hcl]
  set phi := wrapPi (x - mu)
  set base := wrapPi (-mu)
  set T := ∫ t in (0 : ℝ)..x, vmPdf t mu kappa
  set A := 1 / 2 + phi / (2 * π) + 1 / π * s
  set B := 1 / 2 + base / (2 * π) + 1 / π * sb
  have hAB : |(A - B) - (vmK kappa phi - vmK kappa base)| ≤ 16 / 10 ^ 12 := by
    have e : (A - B) - (vmK kappa phi - vmK kappa base)
        = 1 / π * ((π * (vmK kappa base - base / (2 * π)) - sb)
          - (π * (vmK kappa phi - phi / (2 * π)) - s)) := by
      simp only [A, B]
      field_simp
      ring
    rw [e, abs_mul, abs_of_pos (by positivity)]
    have := abs_sub (π * (vmK kappa base - base / (2 * π)) - sb)
      (π * (vmK kappa phi - phi / (2 * π)) - s)
    rw [one_div, ← div_eq_inv_mul, div_le_iff₀ pi_pos]
    norm_num at t1 t2 ⊢
    linarith
  by_cases hcase : base ≤ phi
  · rw [if_pos hcase] at hred ⊢
    rw [add_zero] at hred
    refine (clip_dist _ _ hI0 hI1).trans ((clip_dist _ _ hI0 hI1).trans ?_)
    rw [hred]; exact hAB
  · rw [if_neg hcase] at hred ⊢
    refine (clip_dist _ _ hI0 hI1).trans ?_
    rw [show 1 - clip (B - A) 0 1 - T = -(clip (B - A) 0 1 - (1 - T)) by ring, abs_neg]
    refine (clip_dist _ _ (by linarith) (by linarith)).trans ?_
    rw [show B - A - (1 - T) = -((A - B) - (vmK kappa phi - vmK kappa base)) by rw [hred]; ring,
      abs_neg]
    exact hAB

/-- **C76.** The `cdf` method is the integral of the density from 0 to within `1.6e-11`, for every
accepted `mu`, every `kappa` from `1e-9` to 2500 and every angle up to `7e-5` below a full turn. (In
double precision `I₀` overflows near `kappa = 713`; above that, and above 2500 here, the value comes
from numerical integration.) -/
theorem C76_cdf {numCdf : ℝ → ℝ → ℝ → ℝ} {mu kappa x : ℝ} (hm0 : 0 ≤ mu) (hm1 : mu ≤ 2 * π)
    (hk : 1 / 10 ^ 9 ≤ kappa) (hk1 : kappa ≤ 2500) (hx0 : 0 ≤ x) (hx1 : x ≤ 2 * π - 7 / 10 ^ 5) :
    ∃ c, distCdf (vonmises numCdf) x (mu, kappa) = some c ∧ 0 ≤ c ∧ c ≤ 1 ∧
      |c - ∫ t in (0 : ℝ)..x, vmPdf t mu kappa| ≤ 16 / 10 ^ 12 := by
  have hk0 : 0 < kappa := lt_of_lt_of_le (by norm_num) hk
  have harg : (vonmises numCdf).argcheck (mu, kappa) := ⟨⟨hm0, hm1⟩, hk0⟩
  rcases hx0.eq_or_lt with h | h
  · subst h
    refine ⟨0, ?_, le_rfl, zero_le_one, by simp; positivity⟩
    unfold distCdf
    rw [wrap2pi_zero, if_neg (not_not.mpr harg), if_neg (not_le.mpr two_pi_pos), if_neg (lt_irrefl _)]
  · have h14 : (1 : ℝ) / 10 ^ 14 < 7 / 10 ^ 5 := by norm_num
    have hconv := vmLoop_converges hk0 hk1 (wrapPi (x - mu)) (wrapPi (-mu))
    refine ⟨_, distCdf_inner _ _ harg h (by linarith), ?_, ?_, vmCdf_series hk hx0 hx1 hconv⟩
    all_goals
      show _ ≤ _
      simp only [vonmises, vmCdf]
      rw [wrap2pi_self hx0 (by linarith [wrapTol_lt]), if_neg (not_lt.mpr hk)]
      obtain ⟨⟨s, sb⟩, hr⟩ := hconv
      rw [hr]
      simp only
      split_ifs
      all_goals first | exact zero_le_one | exact le_rfl | exact (clip_mem zero_le_one).1 | exact (clip_mem zero_le_one).2

/-- **C76.** For `kappa` below `1e-9` the `cdf` method is that of the uniform distribution, within
`3e-9` of the integral of the density. -/
theorem C76_cdf_small {numCdf : ℝ → ℝ → ℝ → ℝ} {mu kappa x : ℝ} (hm0 : 0 ≤ mu) (hm1 : mu ≤ 2 * π)
    (hk : 0 < kappa) (hk1 : kappa < 1 / 10 ^ 9) (hx0 : 0 ≤ x) (hx1 : x ≤ 2 * π - 7 / 10 ^ 5) :
    distCdf (vonmises numCdf) x (mu, kappa) = some (x / (2 * π)) ∧
      |x / (2 * π) - ∫ t in (0 : ℝ)..x, vmPdf t mu kappa| ≤ 3 / 10 ^ 9 := by
  have hpi := pi_gt_three
  have hpi2 := pi_lt_d2
  have harg : (vonmises numCdf).argcheck (mu, kappa) := ⟨⟨hm0, hm1⟩, hk⟩
  have h14 : (1 : ℝ) / 10 ^ 14 < 7 / 10 ^ 5 := by norm_num
  have h14' : (0 : ℝ) < 1 / 10 ^ 14 := by norm_num
  have hw : wrap2pi x = x := wrap2pi_self hx0 (by linarith [wrapTol_lt])
  constructor
  · rcases hx0.eq_or_lt with h | h
    · subst h
      unfold distCdf
      rw [wrap2pi_zero, if_neg (not_not.mpr harg), if_neg (not_le.mpr two_pi_pos),
        if_neg (lt_irrefl _), zero_div]
    · rw [distCdf_inner _ _ harg h (by linarith)]
      simp only [vonmises, vmCdf]
      rw [hw, if_pos hk1, if_neg]
      unfold isclose rtolDefault atolDefault
      rw [abs_of_neg (by linarith), abs_of_pos two_pi_pos, not_le]
      norm_num at hx1 ⊢
      linarith
  · have hI0 := besselI_zero_pos kappa
    have hup : besselI 0 kappa ≤ exp kappa := by
      have h1 : ∫ t in (0 : ℝ)..π, exp (kappa * cos t) * cos (((0 : ℕ) : ℝ) * t)
          ≤ ∫ _ in (0 : ℝ)..π, exp kappa := by
        apply intervalIntegral.integral_mono_on pi_pos.le
          ((bessel_cont 0 kappa).intervalIntegrable _ _) intervalIntegrable_const
        intro t _
        rw [Nat.cast_zero, zero_mul, cos_zero, mul_one, exp_le_exp]
        nlinarith [cos_le_one t]
      rw [besselI_pi, intervalIntegral.integral_const, smul_eq_mul, sub_zero] at h1
      exact le_of_mul_le_mul_left h1 pi_pos
    have hlo : exp (-kappa) ≤ besselI 0 kappa := by
      have h1 : ∫ _ in (0 : ℝ)..π, exp (-kappa)
          ≤ ∫ t in (0 : ℝ)..π, exp (kappa * cos t) * cos (((0 : ℕ) : ℝ) * t) := by
        apply intervalIntegral.integral_mono_on pi_pos.le intervalIntegrable_const
          ((bessel_cont 0 kappa).intervalIntegrable _ _)
        intro t _
        rw [Nat.cast_zero, zero_mul, cos_zero, mul_one, exp_le_exp]
        nlinarith [neg_one_le_cos t]
      rw [besselI_pi, intervalIntegral.integral_const, smul_eq_mul, sub_zero] at h1
      exact le_of_mul_le_mul_left h1 pi_pos
    -- the density is between e^{-2κ}/2π and e^{2κ}/2π
    have hE : exp (2 * kappa) ≤ 1 + 3 / 10 ^ 9 := by
      have := Real.exp_bound_div_one_sub_of_interval (x := 2 * kappa) (by linarith)
        (by norm_num at hk1 ⊢; linarith)
      refine this.trans ?_
      rw [div_le_iff₀ (by norm_num at hk1 ⊢; linarith)]
      norm_num at hk1 ⊢
      nlinarith
    have hE' : 1 - 3 / 10 ^ 9 ≤ exp (-(2 * kappa)) := by
      have := add_one_le_exp (-(2 * kappa))
      norm_num at hk1 ⊢
      linarith
    have hf : ∀ t, |1 / (2 * π) - vmPdf t mu kappa| ≤ 3 / 10 ^ 9 / (2 * π) := by
      intro t
      have hu : vmPdf t mu kappa ≤ exp (2 * kappa) / (2 * π) := by
        unfold vmPdf
        rw [div_le_div_iff₀ (by positivity) (by positivity)]
        have a1 : exp (kappa * cos (t - mu)) ≤ exp kappa := by
          rw [exp_le_exp]; nlinarith [cos_le_one (t - mu)]
        have a2 : exp (2 * kappa) * exp (-kappa) = exp kappa := by rw [← exp_add]; congr 1; ring
        have a3 : exp kappa ≤ exp (2 * kappa) * besselI 0 kappa := by
          rw [← a2]; exact mul_le_mul_of_nonneg_left hlo (exp_pos _).le
        have := a1.trans a3
        nlinarith [mul_le_mul_of_nonneg_right this two_pi_pos.le]
      have hl : exp (-(2 * kappa)) / (2 * π) ≤ vmPdf t mu kappa := by
        unfold vmPdf
        rw [div_le_div_iff₀ (by positivity) (by positivity)]
        have a1 : exp (-kappa) ≤ exp (kappa * cos (t - mu)) := by
          rw [exp_le_exp]; nlinarith [neg_one_le_cos (t - mu)]
        have a2 : exp (-(2 * kappa)) * exp kappa = exp (-kappa) := by
          rw [← exp_add]; congr 1; ring
        have a3 : exp (-(2 * kappa)) * besselI 0 kappa ≤ exp (-kappa) := by
          rw [← a2]; exact mul_le_mul_of_nonneg_left hup (exp_pos _).le
        have := a3.trans a1
        nlinarith [mul_le_mul_of_nonneg_right this two_pi_pos.le]
      have p1 : exp (2 * kappa) / (2 * π) ≤ (1 + 3 / 10 ^ 9) / (2 * π) := by gcongr
      have p2 : (1 - 3 / 10 ^ 9) / (2 * π) ≤ exp (-(2 * kappa)) / (2 * π) := by gcongr
      rw [add_div] at p1
      rw [sub_div] at p2
      rw [abs_le]; constructor <;> linarith
    have hint : x / (2 * π) - ∫ t in (0 : ℝ)..x, vmPdf t mu kappa
        = ∫ t in (0 : ℝ)..x, (1 / (2 * π) - vmPdf t mu kappa) := by
      rw [intervalIntegral.integral_sub intervalIntegrable_const
        ((vmPdf_cont mu kappa).intervalIntegrable _ _), intervalIntegral.integral_const, smul_eq_mul]
      ring
    rw [hint]
    have := intervalIntegral.norm_integral_le_of_norm_le_const (a := 0) (b := x)
      (C := 3 / 10 ^ 9 / (2 * π)) (f := fun t => 1 / (2 * π) - vmPdf t mu kappa)
      (fun t _ => hf t)
    rw [Real.norm_eq_abs, sub_zero, abs_of_nonneg hx0] at this
    refine this.trans ?_
    rw [div_mul_eq_mul_div, div_le_iff₀ two_pi_pos]
    gcongr
    linarith

/-- **C76 (negative).** Within `6e-5` of `2π` the `cdf` method is 1 whatever the parameters, although
the integral of the density stays below 1 there. -/
theorem C76_cdf_jump {numCdf : ℝ → ℝ → ℝ → ℝ} {mu kappa x : ℝ} (hm0 : 0 ≤ mu) (hm1 : mu ≤ 2 * π)
    (hk : 0 < kappa) (hk1 : kappa ≤ 2500) (hx0 : 2 * π - 6 / 10 ^ 5 ≤ x) (hx1 : x < 2 * π) :
    distCdf (vonmises numCdf) x (mu, kappa) = some 1 ∧
      ∫ t in (0 : ℝ)..x, vmPdf t mu kappa < 1 := by
  have hpi := pi_gt_three
  have harg : (vonmises numCdf).argcheck (mu, kappa) := ⟨⟨hm0, hm1⟩, hk⟩
  have h6 : (6 : ℝ) / 10 ^ 5 < 1 := by norm_num
  constructor
  · by_cases hc : x < 2 * π - wrapTol
    · have hw : wrap2pi x = x := wrap2pi_self (by linarith) hc
      have := wrapTol_pos
      have hcl : isclose x (2 * π) rtolDefault atolDefault := by
        unfold isclose rtolDefault atolDefault
        rw [abs_of_nonpos (by linarith), abs_of_pos two_pi_pos]
        norm_num at hx0 ⊢
        linarith
      unfold distCdf
      rw [hw, if_neg (not_not.mpr harg), if_neg (by linarith), if_pos (by linarith)]
      simp only [vonmises, vmCdf]
      rw [hw]
      obtain ⟨⟨s, sb⟩, hr⟩ := vmLoop_converges hk hk1 (wrapPi (x - mu)) (wrapPi (-mu))
      rw [hr]
      simp [hcl]
    · have hw : wrap2pi x = 2 * π := wrap2pi_close (by
        rw [abs_of_nonpos (by linarith)]; linarith [not_lt.mp hc])
      unfold distCdf
      rw [hw, if_neg (not_not.mpr harg), if_pos le_rfl]
  · have hm := vmK_mono kappa (by linarith : x - mu < 0 - mu + 2 * π)
    rw [(vmK_arc kappa).add_two_pi] at hm
    rw [vmPdf_integral]; linarith

/-! ## Non-vacuity -/

/-- At `mu = 1`, `kappa = 2`, half a turn. -/
example : ∃ c, distCdf (vonmises fun _ _ _ => 0) π (1, 2) = some c ∧ 0 ≤ c ∧ c ≤ 1 ∧
    |c - ∫ t in (0 : ℝ)..π, vmPdf t 1 2| ≤ 16 / 10 ^ 12 := by
  have := pi_gt_three
  have h7 : (7 : ℝ) / 10 ^ 5 < 1 := by norm_num
  exact C76_cdf (by norm_num) (by linarith) (by norm_num) (by norm_num) pi_pos.le (by linarith)

example : vmEntropy 1 (1 / 2)
    ≠ -∫ x in (0 : ℝ)..(2 * π), vmPdf x 1 (1 / 2) * log (vmPdf x 1 (1 / 2)) :=
  C76_entropy.2 (by norm_num) (by norm_num)

end Verif
