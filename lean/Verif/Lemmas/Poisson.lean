import Verif.Model.DistCauchy
import Verif.Lemmas.DistSimple
import Mathlib.Analysis.SpecialFunctions.Trigonometric.ArctanDeriv
import Mathlib.Analysis.SpecialFunctions.Complex.Arg

/-! # The integrated Poisson kernel (wrapped Cauchy distribution function) -/

set_option autoImplicit false

namespace Verif

open Real Verif.Spec MeasureTheory

/-- `φ/2π + arctan(ρ sin φ/(1 - ρ cos φ))/π`: the distribution function of the wrapped Cauchy
distribution centred at 0, counted from 0, on the whole line. -/
noncomputable def wcK (rho phi : ℝ) : ℝ :=
  phi / (2 * π) + arctan (rho * sin phi / (1 - rho * cos phi)) / π

theorem wc_den_pos {rho : ℝ} (h0 : 0 ≤ rho) (h1 : rho < 1) (phi : ℝ) :
    0 < 1 - rho * cos phi := by
  nlinarith [cos_le_one phi, neg_one_le_cos phi]

theorem wc_kernel_pos {rho : ℝ} (h0 : 0 ≤ rho) (h1 : rho < 1) (phi : ℝ) :
    0 < 1 + rho ^ 2 - 2 * rho * cos phi := by
  nlinarith [cos_le_one phi, neg_one_le_cos phi, sq_nonneg (1 - rho),
    mul_nonneg h0 (sub_nonneg.mpr (cos_le_one phi)), sq_pos_of_pos (sub_pos.mpr h1)]

theorem wcK_hasDerivAt {rho : ℝ} (h0 : 0 ≤ rho) (h1 : rho < 1) (phi : ℝ) :
    HasDerivAt (wcK rho) ((1 - rho ^ 2) / (2 * π * (1 + rho ^ 2 - 2 * rho * cos phi))) phi := by
  have hd := wc_den_pos h0 h1 phi
  have hk := wc_kernel_pos h0 h1 phi
  have hpi := pi_pos
  have hnum : HasDerivAt (fun t : ℝ => rho * sin t) (rho * cos phi) phi :=
    (hasDerivAt_sin phi).const_mul rho
  have hden : HasDerivAt (fun t : ℝ => 1 - rho * cos t) (rho * sin phi) phi := by
    have := ((hasDerivAt_cos phi).const_mul rho).const_sub 1
    refine this.congr_deriv (by ring)
  have hq := (hnum.div hden hd.ne').arctan
  have := ((hasDerivAt_id phi).div_const (2 * π)).add (hq.div_const π)
  refine this.congr_deriv ?_
  have hs : sin phi ^ 2 = 1 - cos phi ^ 2 := by rw [sin_sq]
  have h3 : 1 + (rho * sin phi / (1 - rho * cos phi)) ^ 2
      = (1 + rho ^ 2 - 2 * rho * cos phi) / (1 - rho * cos phi) ^ 2 := by
    rw [div_pow, mul_pow, hs, eq_div_iff (by positivity), add_mul, div_mul_cancel₀ _ (by positivity)]
    ring
  have h4 : rho * cos phi * (1 - rho * cos phi) - rho * sin phi * (rho * sin phi)
      = rho * cos phi - rho ^ 2 := by
    have : rho * sin phi * (rho * sin phi) = rho ^ 2 * sin phi ^ 2 := by ring
    rw [this, hs]; ring
  simp only [Pi.div_apply] at *
  rw [h3, h4]
  have hne := hk.ne'
  have hne2 := hd.ne'
  rw [show (1 / ((1 + rho ^ 2 - 2 * rho * cos phi) / (1 - rho * cos phi) ^ 2)
      * ((rho * cos phi - rho ^ 2) / (1 - rho * cos phi) ^ 2)) 
      = (rho * cos phi - rho ^ 2) / (1 + rho ^ 2 - 2 * rho * cos phi) by
    field_simp]
  rw [div_add_div _ _ (by positivity) (by positivity), div_eq_div_iff (by positivity) (by positivity)]
  field_simp
  ring

theorem wcK_add_two_pi (rho phi : ℝ) : wcK rho (phi + 2 * π) = wcK rho phi + 1 := by
  have hpi := pi_pos
  unfold wcK
  rw [sin_add_two_pi, cos_add_two_pi]
  field_simp
  ring

theorem wcK_add_int (rho phi : ℝ) (k : ℤ) : wcK rho (phi + k * (2 * π)) = wcK rho phi + k := by
  have hpi := pi_pos
  unfold wcK
  rw [sin_add_int_mul_two_pi, cos_add_int_mul_two_pi]
  field_simp
  ring

theorem wcK_zero (rho : ℝ) : wcK rho 0 = 0 := by simp [wcK]

theorem wcK_pi (rho : ℝ) : wcK rho π = 1 / 2 := by
  have hpi := pi_pos
  unfold wcK; simp; field_simp

theorem wcK_neg (rho phi : ℝ) : wcK rho (-phi) = -wcK rho phi := by
  unfold wcK
  rw [sin_neg, cos_neg, show rho * -sin phi / (1 - rho * cos phi)
    = -(rho * sin phi / (1 - rho * cos phi)) by ring, arctan_neg]
  ring

theorem wcK_strictMono {rho : ℝ} (h0 : 0 ≤ rho) (h1 : rho < 1) : StrictMono (wcK rho) := by
  apply strictMono_of_deriv_pos
  intro x
  rw [(wcK_hasDerivAt h0 h1 x).deriv]
  have := wc_kernel_pos h0 h1 x
  have hpi := pi_pos
  apply div_pos _ (by positivity)
  nlinarith

theorem wcPdf_continuous {rho : ℝ} (mu : ℝ) (h0 : 0 ≤ rho) (h1 : rho < 1) :
    Continuous fun x => wcPdf x mu rho := by
  unfold wcPdf
  apply Continuous.div continuous_const (by fun_prop)
  intro x
  have := wc_kernel_pos h0 h1 (x - mu)
  have hpi := pi_pos
  positivity

theorem wcPdf_integral {rho : ℝ} (mu : ℝ) (h0 : 0 ≤ rho) (h1 : rho < 1) (a b : ℝ) :
    ∫ t in a..b, wcPdf t mu rho = wcK rho (b - mu) - wcK rho (a - mu) := by
  refine intervalIntegral.integral_eq_sub_of_hasDerivAt (f := fun t => wcK rho (t - mu)) ?_
    ((wcPdf_continuous mu h0 h1).intervalIntegrable _ _)
  intro t _
  have h := (wcK_hasDerivAt h0 h1 (t - mu)).comp t ((hasDerivAt_id t).sub_const mu)
  rw [mul_one] at h
  exact h

theorem wcPdf_pos {rho : ℝ} (x mu : ℝ) (h0 : 0 ≤ rho) (h1 : rho < 1) : 0 < wcPdf x mu rho := by
  have := wc_kernel_pos h0 h1 (x - mu)
  have hpi := pi_pos
  unfold wcPdf
  apply div_pos _ (by positivity)
  nlinarith

theorem wc_isCircularDensity {rho : ℝ} (mu : ℝ) (h0 : 0 ≤ rho) (h1 : rho < 1) :
    IsCircularDensity fun x => wcPdf x mu rho := by
  refine ⟨fun x _ _ => (wcPdf_pos x mu h0 h1).le,
    (wcPdf_continuous mu h0 h1).intervalIntegrable _ _, ?_⟩
  rw [wcPdf_integral mu h0 h1, show 2 * π - mu = (0 - mu) + 2 * π by ring, wcK_add_two_pi]
  ring

/-! ## Complex form -/

/-- The complex number `1 - ρ e^{-iφ}` and its argument. -/
theorem wc_arg {rho : ℝ} (h0 : 0 ≤ rho) (h1 : rho < 1) (phi : ℝ) :
    Complex.arg (⟨1 - rho * cos phi, rho * sin phi⟩ : ℂ)
      = arctan (rho * sin phi / (1 - rho * cos phi)) := by
  have hd := wc_den_pos h0 h1 phi
  have habs : |Complex.arg (⟨1 - rho * cos phi, rho * sin phi⟩ : ℂ)| < π / 2 := by
    rw [Complex.abs_arg_lt_pi_div_two_iff]
    exact Or.inl hd
  rw [abs_lt] at habs
  have ht := Complex.tan_arg (⟨1 - rho * cos phi, rho * sin phi⟩ : ℂ)
  simp only at ht
  rw [← ht, arctan_tan habs.1 habs.2]

theorem wc_polar {rho : ℝ} (h0 : 0 ≤ rho) (h1 : rho < 1) (phi : ℝ) :
    (1 - rho * Complex.exp (-(phi * Complex.I)) : ℂ)
      = ‖(1 - rho * Complex.exp (-(phi * Complex.I)) : ℂ)‖
        * Complex.exp (arctan (rho * sin phi / (1 - rho * cos phi)) * Complex.I) ∧
    (1 - rho * Complex.exp (-(phi * Complex.I)) : ℂ) = ⟨1 - rho * cos phi, rho * sin phi⟩ := by
  have hz : (1 - rho * Complex.exp (-(phi * Complex.I)) : ℂ) = ⟨1 - rho * cos phi, rho * sin phi⟩ := by
    rw [show (-(phi * Complex.I) : ℂ) = ((-phi : ℝ) : ℂ) * Complex.I by push_cast; ring,
      Complex.exp_mul_I, ← Complex.ofReal_cos, ← Complex.ofReal_sin, cos_neg, sin_neg]
    apply Complex.ext <;> simp [-Complex.ofReal_cos, -Complex.ofReal_sin]
  refine ⟨?_, hz⟩
  rw [hz, ← wc_arg h0 h1, Complex.norm_mul_exp_arg_mul_I]

theorem wc_unit_ne {rho : ℝ} (h0 : 0 ≤ rho) (h1 : rho < 1) (phi : ℝ) :
    (1 - rho * Complex.exp (phi * Complex.I) : ℂ) ≠ 0 := by
  intro h
  have h2 : ‖(rho * Complex.exp (phi * Complex.I) : ℂ)‖ = rho := by
    rw [norm_mul, Complex.norm_exp_ofReal_mul_I, mul_one, Complex.norm_real, norm_of_nonneg h0]
  rw [← sub_eq_zero.mp h] at h2
  simp at h2; linarith

/-- `e^{2πi K(φ)}` is the Möbius image `(e^{iφ} - ρ)/(1 - ρ e^{iφ})`. -/
theorem exp_wcK {rho : ℝ} (h0 : 0 ≤ rho) (h1 : rho < 1) (phi : ℝ) :
    Complex.exp ((2 * π * wcK rho phi : ℝ) * Complex.I)
      = (Complex.exp (phi * Complex.I) - rho) / (1 - rho * Complex.exp (phi * Complex.I)) := by
  have hpi := pi_pos
  set a := arctan (rho * sin phi / (1 - rho * cos phi)) with ha
  obtain ⟨hp, hz⟩ := wc_polar h0 h1 phi
  rw [← ha] at hp
  set N := ‖(1 - rho * Complex.exp (-(phi * Complex.I)) : ℂ)‖ with hN
  have he : 2 * π * wcK rho phi = phi + a + a := by
    unfold wcK; rw [← ha]; field_simp; ring
  have hconj : (1 - rho * Complex.exp (phi * Complex.I) : ℂ)
      = N * Complex.exp (-(a * Complex.I)) := by
    have := congrArg (starRingEnd ℂ) hp
    simp only [map_sub, map_one, map_mul, Complex.conj_ofReal, ← Complex.exp_conj, map_neg,
      Complex.conj_I, mul_neg, neg_neg] at this
    exact this
  have hne := wc_unit_ne h0 h1 phi
  rw [eq_div_iff hne, hconj, he]
  have hprod : Complex.exp (phi * Complex.I) * (1 - rho * Complex.exp (-(phi * Complex.I)))
      = Complex.exp (phi * Complex.I) - rho := by
    have : Complex.exp (phi * Complex.I) * Complex.exp (-(phi * Complex.I)) = 1 := by
      rw [← Complex.exp_add]; simp
    linear_combination (-(rho : ℂ)) * this
  rw [← hprod, hp]
  push_cast
  rw [show ((phi : ℂ) + a + a) * Complex.I = phi * Complex.I + a * Complex.I + a * Complex.I by ring,
    Complex.exp_add, Complex.exp_add]
  have : Complex.exp (a * Complex.I) * Complex.exp (-(a * Complex.I)) = 1 := by
    rw [← Complex.exp_add]; simp
  linear_combination (Complex.exp (phi * Complex.I) * Complex.exp (a * Complex.I) * N) * this

/-- The implemented primitive agrees with `K` on `[-π, π)`. -/
theorem wcH_eq {rho phi : ℝ} (h0 : 0 ≤ rho) (h1 : rho < 1) (hl : -π ≤ phi) (hu : phi < π) :
    wcH phi ((1 + rho) / (1 - rho)) = 1 / 2 + wcK rho phi := by
  have hpi := pi_pos
  have hr : 0 < 1 - rho := by linarith
  have hd := wc_den_pos h0 h1 phi
  set a := arctan (rho * sin phi / (1 - rho * cos phi)) with ha
  obtain ⟨hp, hz⟩ := wc_polar h0 h1 phi
  rw [← ha] at hp
  set N := ‖(1 - rho * Complex.exp (-(phi * Complex.I)) : ℂ)‖ with hN
  have hNpos : 0 < N := by
    rw [hN, norm_pos_iff, hz]
    intro h
    have := congrArg Complex.re h
    simp at this; linarith
  have hfac : (⟨cos (1 / 2 * phi), (1 + rho) / (1 - rho) * sin (1 / 2 * phi)⟩ : ℂ)
      = ((1 / (1 - rho) * N : ℝ) : ℂ) * Complex.exp ((phi / 2 + a : ℝ) * Complex.I) := by
    have e1 : ((1 / (1 - rho) * N : ℝ) : ℂ) * Complex.exp ((phi / 2 + a : ℝ) * Complex.I)
        = ((1 / (1 - rho) : ℝ) : ℂ) * (Complex.exp ((phi / 2 : ℝ) * Complex.I)
          * (1 - rho * Complex.exp (-(phi * Complex.I)))) := by
      rw [hp]
      push_cast
      rw [show ((phi : ℂ) / 2 + a) * Complex.I = phi / 2 * Complex.I + a * Complex.I by ring,
        Complex.exp_add]
      ring
    have e2 : Complex.exp ((phi / 2 : ℝ) * Complex.I) * (1 - rho * Complex.exp (-(phi * Complex.I)))
        = Complex.exp ((phi / 2 : ℝ) * Complex.I)
          - rho * Complex.exp (((-(phi / 2) : ℝ) : ℂ) * Complex.I) := by
      have : Complex.exp ((phi / 2 : ℝ) * Complex.I) * Complex.exp (-(phi * Complex.I))
          = Complex.exp (((-(phi / 2) : ℝ) : ℂ) * Complex.I) := by
        rw [← Complex.exp_add]; congr 1; push_cast; ring
      linear_combination (-(rho : ℂ)) * this
    rw [e1, e2, Complex.exp_mul_I, Complex.exp_mul_I, ← Complex.ofReal_cos, ← Complex.ofReal_sin,
      ← Complex.ofReal_cos, ← Complex.ofReal_sin, cos_neg, sin_neg,
      show 1 / 2 * phi = phi / 2 by ring]
    have hne := hr.ne'
    apply Complex.ext
    · simp only [Complex.mul_re, Complex.sub_re, Complex.add_re, Complex.ofReal_re, Complex.mul_im,
        Complex.ofReal_im, Complex.I_re, Complex.I_im, Complex.sub_im, Complex.add_im]
      field_simp; ring
    · simp only [Complex.mul_re, Complex.sub_re, Complex.add_re, Complex.ofReal_re, Complex.mul_im,
        Complex.ofReal_im, Complex.I_re, Complex.I_im, Complex.sub_im, Complex.add_im]
      field_simp; ring
  have hb := arctan_lt_pi_div_two (rho * sin phi / (1 - rho * cos phi))
  have hb' := neg_pi_div_two_lt_arctan (rho * sin phi / (1 - rho * cos phi))
  rw [← ha] at hb hb'
  unfold wcH arctan2
  rw [hfac, Complex.arg_real_mul _ (by positivity), Complex.arg_exp_mul_I,
    toIocMod_eq_self two_pi_pos |>.mpr ⟨by linarith, by linarith⟩]
  unfold wcK
  rw [← ha]
  field_simp

/-! ## Reduction to `[-π, π)` -/

theorem wrapPi_mem (y : ℝ) : -π ≤ wrapPi y ∧ wrapPi y < π := by
  unfold wrapPi
  have h1 := pymod_nonneg two_pi_pos (y + π)
  have h2 := pymod_lt two_pi_pos (y + π)
  constructor <;> linarith

theorem wrapPi_cong (y : ℝ) : SameDir (wrapPi y) y := by
  obtain ⟨k, hk⟩ := pymod_cong (y + π) (2 * π)
  exact ⟨k, by unfold wrapPi; linarith⟩

/-- The probability of `[0, θ]` from the primitive at the reduced angles. -/
theorem wc_reduce {rho mu theta : ℝ} (h0 : 0 ≤ rho) (h1 : rho < 1) (ht0 : 0 ≤ theta)
    (ht1 : theta < 2 * π) :
    ∫ t in (0 : ℝ)..theta, wcPdf t mu rho
      = wcK rho (wrapPi (theta - mu)) - wcK rho (wrapPi (-mu))
        + if wrapPi (-mu) ≤ wrapPi (theta - mu) then 0 else 1 := by
  have hp := two_pi_pos
  rw [wcPdf_integral mu h0 h1]
  obtain ⟨k, hk⟩ := wrapPi_cong (theta - mu)
  obtain ⟨j, hj⟩ := wrapPi_cong (-mu)
  have hm1 := wrapPi_mem (theta - mu)
  have hm2 := wrapPi_mem (-mu)
  have e1 : wcK rho (wrapPi (theta - mu)) = wcK rho (theta - mu) + k := by rw [hk, wcK_add_int]
  have e2 : wcK rho (wrapPi (-mu)) = wcK rho (0 - mu) + j := by rw [hj, wcK_add_int, zero_sub]
  rw [e1, e2]
  have hd : wrapPi (theta - mu) - wrapPi (-mu) = theta + ((k - j : ℤ) : ℝ) * (2 * π) := by
    rw [hk, hj]; push_cast; ring
  split_ifs with hc
  · have hlow : -1 < k - j := by
      by_contra h
      have h' : ((k - j : ℤ) : ℝ) ≤ -1 := by exact_mod_cast not_lt.mp h
      nlinarith
    have hup : k - j < 1 := by
      by_contra h
      have h' : (1 : ℝ) ≤ ((k - j : ℤ) : ℝ) := by exact_mod_cast not_lt.mp h
      nlinarith [hm1.2, hm2.1]
    have : k = j := by omega
    rw [this]; ring
  · have hlow : -2 < k - j := by
      by_contra h
      have h' : ((k - j : ℤ) : ℝ) ≤ -2 := by exact_mod_cast not_lt.mp h
      nlinarith [hm1.1, hm2.2]
    have hup : k - j < 0 := by
      by_contra h
      have h' : (0 : ℝ) ≤ ((k - j : ℤ) : ℝ) := by exact_mod_cast not_lt.mp h
      nlinarith [not_le.mp hc]
    have : k = j - 1 := by omega
    rw [this]; push_cast; ring

end Verif
