import Verif.Model.DistKatoJones
import Verif.Spec.Families
import Verif.Lemmas.Distn
import Mathlib.Analysis.SpecificLimits.Normed
import Mathlib.MeasureTheory.Integral.DominatedConvergence
import Mathlib.Analysis.SpecialFunctions.Integrals.Basic

/-! # Facts about the Kato-Jones density -/

set_option autoImplicit false

namespace Verif

open Real MeasureTheory Verif.Spec

theorem kj_den (rho d : ℝ) : 1 + rho ^ 2 - 2 * rho * cos d = (1 - rho) ^ 2 + 2 * rho * (1 - cos d) := by ring

theorem kj_den_ge {rho : ℝ} (h0 : 0 ≤ rho) (d : ℝ) : (1 - rho) ^ 2 ≤ 1 + rho ^ 2 - 2 * rho * cos d := by
  rw [kj_den]
  have := mul_nonneg h0 (sub_nonneg.2 (cos_le_one d))
  nlinarith

theorem kj_den_pos {rho : ℝ} (h0 : 0 ≤ rho) (h1 : rho < 1) (d : ℝ) : 0 < 1 + rho ^ 2 - 2 * rho * cos d :=
  lt_of_lt_of_le (by have : 0 < 1 - rho := by linarith
                     positivity) (kj_den_ge h0 d)

/-- The Fourier series of the kernel of the density. -/
theorem kj_hasSum {rho : ℝ} (h0 : 0 ≤ rho) (h1 : rho < 1) (d lam : ℝ) :
    HasSum (fun p : ℕ => rho ^ p * cos ((p + 1) * d - p * lam))
      ((cos d - rho * cos lam) / (1 + rho ^ 2 - 2 * rho * cos (d - lam))) := by
  set q : ℂ := rho * Complex.exp ((d - lam : ℝ) * Complex.I) with hq
  have hn : ‖q‖ < 1 := by
    rw [hq, norm_mul, Complex.norm_exp_ofReal_mul_I, mul_one, Complex.norm_real, Real.norm_eq_abs, abs_of_nonneg h0]
    exact h1
  have h := ((hasSum_geometric_of_norm_lt_one hn).mul_left (Complex.exp ((d : ℝ) * Complex.I)))
  have hr := Complex.hasSum_re h
  have hden := kj_den_pos h0 h1 (d - lam)
  convert hr using 1
  · funext p
    have e : Complex.exp ((d : ℝ) * Complex.I) * q ^ p
        = ((rho ^ p : ℝ) : ℂ) * Complex.exp ((((p + 1) * d - p * lam : ℝ) : ℂ) * Complex.I) := by
      rw [hq, mul_pow, ← Complex.exp_nat_mul, mul_left_comm, ← Complex.exp_add]
      push_cast
      congr 2
      ring
    rw [e, Complex.re_ofReal_mul, Complex.exp_ofReal_mul_I_re]
  · have e1 : q = ⟨rho * cos (d - lam), rho * sin (d - lam)⟩ := by
      apply Complex.ext
      · rw [hq, Complex.re_ofReal_mul, Complex.exp_ofReal_mul_I_re]
      · rw [hq, Complex.im_ofReal_mul, Complex.exp_ofReal_mul_I_im]
    have e2 : Complex.normSq (1 - q) = 1 + rho ^ 2 - 2 * rho * cos (d - lam) := by
      rw [e1, Complex.normSq_apply]
      simp
      nlinarith [sin_sq_add_cos_sq (d - lam)]
    rw [Complex.mul_re, Complex.inv_re, Complex.inv_im, e2, Complex.exp_ofReal_mul_I_re, Complex.exp_ofReal_mul_I_im, e1]
    simp
    rw [div_eq_iff hden.ne']
    have e3 : cos lam = cos d * cos (d - lam) + sin d * sin (d - lam) := by
      rw [← cos_sub]; congr 1; ring
    have hD := hden.ne'
    generalize 1 + rho ^ 2 - 2 * rho * cos (d - lam) = D at hD ⊢
    rw [e3]
    field_simp
    ring

theorem kj_summable {rho : ℝ} (h0 : 0 ≤ rho) (h1 : rho < 1) : Summable fun p : ℕ => rho ^ p :=
  summable_geometric_of_lt_one h0 h1

/-- Termwise integration against a bounded continuous function. -/
theorem kj_hasSum_integral {rho : ℝ} (h0 : 0 ≤ rho) (h1 : rho < 1) (mu lam a b : ℝ) {h : ℝ → ℝ} (hc : Continuous h)
    (hb : ∀ x, |h x| ≤ 1) :
    HasSum (fun p : ℕ => ∫ x in a..b, rho ^ p * cos ((p + 1) * (x - mu) - p * lam) * h x)
      (∫ x in a..b, (cos (x - mu) - rho * cos lam) / (1 + rho ^ 2 - 2 * rho * cos (x - mu - lam)) * h x) := by
  refine intervalIntegral.hasSum_integral_of_dominated_convergence (fun p _ => rho ^ p) ?_ ?_ ?_ ?_ ?_
  · intro p
    exact (by fun_prop : Continuous fun x => rho ^ p * cos ((p + 1) * (x - mu) - p * lam) * h x).aestronglyMeasurable
  · intro p
    refine Filter.Eventually.of_forall fun x _ => ?_
    rw [norm_mul, norm_mul, norm_of_nonneg (pow_nonneg h0 p)]
    have e1 : ‖cos ((p + 1) * (x - mu) - p * lam)‖ ≤ 1 := abs_cos_le_one _
    have e2 : ‖h x‖ ≤ 1 := hb x
    calc _ ≤ rho ^ p * 1 * 1 := by gcongr
      _ = _ := by ring
  · exact Filter.Eventually.of_forall fun x _ => kj_summable h0 h1
  · exact intervalIntegrable_const
  · exact Filter.Eventually.of_forall fun x _ => (kj_hasSum h0 h1 (x - mu) lam).mul_right (h x)

theorem kj_kernel_continuous {rho : ℝ} (h0 : 0 ≤ rho) (h1 : rho < 1) (mu lam : ℝ) : Continuous fun x : ℝ =>
    (cos (x - mu) - rho * cos lam) / (1 + rho ^ 2 - 2 * rho * cos (x - mu - lam)) :=
  Continuous.div (by fun_prop) (by fun_prop) fun x => (kj_den_pos h0 h1 _).ne'

theorem kjDensity_continuous {rho : ℝ} (h0 : 0 ≤ rho) (h1 : rho < 1) (mu gamma lam : ℝ) :
    Continuous (kjDensity mu gamma rho lam) := by
  have := kj_kernel_continuous h0 h1 mu lam
  have e : kjDensity mu gamma rho lam = fun x => (1 + 2 * gamma * ((cos (x - mu) - rho * cos lam)
      / (1 + rho ^ 2 - 2 * rho * cos (x - mu - lam)))) / (2 * π) := by
    funext x; unfold kjDensity; rw [mul_div_assoc]
  rw [e]
  fun_prop

/-- The distribution function as a series. -/
theorem kj_integral {rho : ℝ} (h0 : 0 ≤ rho) (h1 : rho < 1) (mu gamma lam x : ℝ) :
    HasSum (fun p : ℕ => gamma / π * (rho ^ p * ((sin ((p + 1) * x - ((p + 1) * mu + p * lam))
        + sin ((p + 1) * mu + p * lam)) / (p + 1))))
      ((∫ t in (0 : ℝ)..x, kjDensity mu gamma rho lam t) - x / (2 * π)) := by
  have h := (kj_hasSum_integral h0 h1 mu lam 0 x (h := fun _ => 1) continuous_const (by simp)).mul_left (gamma / π)
  simp only [mul_one] at h
  have E1 : ∀ p : ℕ, gamma / π * (rho ^ p * ((sin ((p + 1) * x - ((p + 1) * mu + p * lam))
        + sin ((p + 1) * mu + p * lam)) / (p + 1)))
      = gamma / π * ∫ t in (0 : ℝ)..x, rho ^ p * cos ((p + 1) * (t - mu) - p * lam) := by
    intro p
    rw [intervalIntegral.integral_const_mul]
    have hp : (0 : ℝ) < (p : ℝ) + 1 := by positivity
    have : ∫ t in (0 : ℝ)..x, cos ((p + 1) * (t - mu) - p * lam)
        = (sin ((p + 1) * x - ((p + 1) * mu + p * lam)) + sin ((p + 1) * mu + p * lam)) / (p + 1) := by
      have hd : ∀ t ∈ Set.uIcc 0 x, HasDerivAt (fun t => sin ((p + 1) * (t - mu) - p * lam) / (p + 1))
          (cos ((p + 1) * (t - mu) - p * lam)) t := by
        intro t _
        have h1 : HasDerivAt (fun t : ℝ => ((p : ℝ) + 1) * (t - mu) - p * lam) (((p : ℝ) + 1) * 1) t :=
          (((hasDerivAt_id t).sub_const mu).const_mul _).sub_const _
        refine (h1.sin.div_const ((p : ℝ) + 1)).congr_deriv ?_
        field_simp
      rw [intervalIntegral.integral_eq_sub_of_hasDerivAt hd
        ((by fun_prop : Continuous fun t : ℝ => cos ((p + 1) * (t - mu) - p * lam)).intervalIntegrable _ _)]
      rw [show ((p : ℝ) + 1) * (0 - mu) - p * lam = -((p + 1) * mu + p * lam) by ring, sin_neg,
        show ((p : ℝ) + 1) * (x - mu) - p * lam = (p + 1) * x - ((p + 1) * mu + p * lam) by ring]
      ring
    rw [this]
  have E2 : (∫ t in (0 : ℝ)..x, kjDensity mu gamma rho lam t) - x / (2 * π)
      = gamma / π * ∫ t in (0 : ℝ)..x, (cos (t - mu) - rho * cos lam)
        / (1 + rho ^ 2 - 2 * rho * cos (t - mu - lam)) := by
    have hc := kj_kernel_continuous h0 h1 mu lam
    have e : ∀ t, kjDensity mu gamma rho lam t = 1 / (2 * π) + gamma / π * ((cos (t - mu) - rho * cos lam)
        / (1 + rho ^ 2 - 2 * rho * cos (t - mu - lam))) := by
      intro t
      unfold kjDensity
      have := pi_ne_zero
      have := (kj_den_pos h0 h1 (t - mu - lam)).ne'
      field_simp
    simp only [e]
    rw [intervalIntegral.integral_add intervalIntegrable_const ((hc.const_mul _).intervalIntegrable _ _),
      intervalIntegral.integral_const, intervalIntegral.integral_const_mul]
    simp only [sub_zero, smul_eq_mul]
    ring
  rw [E2]
  simpa only [E1] using h

/-- Total mass 1. -/
theorem kj_mass {rho : ℝ} (h0 : 0 ≤ rho) (h1 : rho < 1) (mu gamma lam : ℝ) :
    ∫ t in (0 : ℝ)..(2 * π), kjDensity mu gamma rho lam t = 1 := by
  have h := kj_integral h0 h1 mu gamma lam (2 * π)
  have e : (fun p : ℕ => gamma / π * (rho ^ p * ((sin ((p + 1) * (2 * π) - ((p + 1) * mu + p * lam))
        + sin ((p + 1) * mu + p * lam)) / (p + 1)))) = fun _ => 0 := by
    funext p
    have : sin (((p : ℝ) + 1) * (2 * π) - ((p + 1) * mu + p * lam)) = - sin ((p + 1) * mu + p * lam) := by
      have := sin_nat_mul_two_pi_sub ((p + 1) * mu + p * lam) (p + 1)
      push_cast at this
      exact this
    rw [this]; simp
  rw [e] at h
  have := h.unique hasSum_zero
  have h2 : (2 * π) / (2 * π) = 1 := div_self (by positivity)
  linarith

/-- Under the exact parameter constraint the density is non-negative. -/
theorem kj_nonneg {gamma rho : ℝ} (h0 : 0 ≤ rho) (h1 : rho < 1) (hg0 : 0 ≤ gamma) (hg : gamma < 1)
    (mu lam x : ℝ) (hf : (rho * cos lam - gamma) ^ 2 + (rho * sin lam) ^ 2 ≤ (1 - gamma) ^ 2) :
    0 ≤ kjDensity mu gamma rho lam x := by
  have hd := kj_den_pos h0 h1 (x - mu - lam)
  unfold kjDensity
  refine div_nonneg ?_ (by positivity)
  rw [show ∀ a : ℝ, 1 + a / (1 + rho ^ 2 - 2 * rho * cos (x - mu - lam))
      = (1 * (1 + rho ^ 2 - 2 * rho * cos (x - mu - lam)) + a) / (1 + rho ^ 2 - 2 * rho * cos (x - mu - lam)) from
    fun a => by rw [add_div, one_mul, div_self hd.ne']]
  refine div_nonneg ?_ hd.le
  set d := x - mu
  -- the numerator is `|z - w + γ|² - γ²`
  set A := rho * cos lam - gamma
  set B := rho * sin lam
  have hn : (1 * (1 + rho ^ 2 - 2 * rho * cos (d - lam)) + 2 * gamma * (cos d - rho * cos lam))
      = (cos d - A) ^ 2 + (sin d - B) ^ 2 - gamma ^ 2 := by
    simp only [A, B]
    rw [cos_sub]
    nlinarith [sin_sq_add_cos_sq d, sin_sq_add_cos_sq lam]
  rw [hn]
  -- Cauchy-Schwarz
  have hcs : (cos d * A + sin d * B) ^ 2 ≤ A ^ 2 + B ^ 2 := by
    nlinarith [sq_nonneg (cos d * B - sin d * A), sin_sq_add_cos_sq d]
  have hcs' : cos d * A + sin d * B ≤ sqrt (A ^ 2 + B ^ 2) := by
    exact (le_abs_self _).trans (abs_le_sqrt hcs)
  set R := sqrt (A ^ 2 + B ^ 2) with hR
  have hR0 : 0 ≤ R := sqrt_nonneg _
  have hR2 : R ^ 2 = A ^ 2 + B ^ 2 := sq_sqrt (by positivity)
  have hRle : R ≤ 1 - gamma := by
    rw [hR]
    exact sqrt_le_iff.2 ⟨by linarith, hf⟩
  nlinarith [sin_sq_add_cos_sq d]

/-- The guards of the code do nothing for admissible parameters. -/
theorem kjPdf_eq {s : KJ} (h0 : 0 ≤ s.rho) (h1 : s.rho ≤ 1 - 4 / 10 ^ 8) (hg0 : 0 ≤ s.gamma) (hg : s.gamma < 1)
    (hf : (s.rho * cos s.lam - s.gamma) ^ 2 + (s.rho * sin s.lam) ^ 2 ≤ (1 - s.gamma) ^ 2) (x : ℝ) :
    kjPdf x s = kjDensity s.mu s.gamma s.rho s.lam x := by
  have h1' : s.rho < 1 := lt_of_le_of_lt h1 (by norm_num)
  have hn := kj_nonneg h0 h1' hg0 hg s.mu s.lam x hf
  have hd := kj_den_ge h0 (x - s.mu - s.lam)
  unfold kjPdf
  simp only
  rw [max_eq_left (a := 1 + s.rho ^ 2 - 2 * s.rho * cos (x - s.mu - s.lam))]
  · exact max_eq_left hn
  · refine le_trans ?_ hd
    have : (4 : ℝ) / 10 ^ 8 ≤ 1 - s.rho := by linarith
    calc (1 : ℝ) / 10 ^ 15 ≤ (4 / 10 ^ 8) ^ 2 := by norm_num
      _ ≤ _ := by gcongr

/-! ## Trigonometric moments -/

private lemma int_cos_full (k : ℤ) (hk : k ≠ 0) (a : ℝ) : ∫ x in (0 : ℝ)..(2 * π), cos (k * x - a) = 0 := by
  have hk' : (k : ℝ) ≠ 0 := by exact_mod_cast hk
  have hd : ∀ t ∈ Set.uIcc 0 (2 * π), HasDerivAt (fun t => sin (k * t - a) / k) (cos (k * t - a)) t := by
    intro t _
    have h1 : HasDerivAt (fun t : ℝ => (k : ℝ) * t - a) ((k : ℝ) * 1) t :=
      ((hasDerivAt_id t).const_mul _).sub_const _
    refine (h1.sin.div_const (k : ℝ)).congr_deriv ?_
    field_simp
  rw [intervalIntegral.integral_eq_sub_of_hasDerivAt hd
    ((by fun_prop : Continuous fun t : ℝ => cos (k * t - a)).intervalIntegrable _ _)]
  rw [show (k : ℝ) * (2 * π) - a = -a + k * (2 * π) by ring, sin_add_int_mul_two_pi]
  simp

/-- Orthogonality. -/
theorem kj_orth_cos (m n : ℕ) (hm : 0 < m) (hn : 0 < n) (a : ℝ) :
    ∫ x in (0 : ℝ)..(2 * π), cos (m * x - a) * cos (n * x) = if m = n then π * cos a else 0 := by
  have e : ∀ x : ℝ, cos (m * x - a) * cos (n * x)
      = 1 / 2 * cos (((m : ℤ) - n : ℤ) * x - a) + 1 / 2 * cos (((m : ℤ) + n : ℤ) * x - a) := by
    intro x
    push_cast
    rw [show ((m : ℝ) - n) * x - a = (m * x - a) - n * x by ring, show ((m : ℝ) + n) * x - a = (m * x - a) + n * x by ring,
      cos_sub (m * x - a), cos_add (m * x - a)]
    ring
  simp only [e]
  rw [intervalIntegral.integral_add ((by fun_prop : Continuous fun x : ℝ => _).intervalIntegrable _ _)
    ((by fun_prop : Continuous fun x : ℝ => _).intervalIntegrable _ _), intervalIntegral.integral_const_mul,
    intervalIntegral.integral_const_mul, int_cos_full ((m : ℤ) + n) (by omega)]
  split_ifs with h
  · subst h
    simp
    ring
  · rw [int_cos_full ((m : ℤ) - n) (by omega)]; simp

theorem kj_orth_sin (m n : ℕ) (hm : 0 < m) (hn : 0 < n) (a : ℝ) :
    ∫ x in (0 : ℝ)..(2 * π), cos (m * x - a) * sin (n * x) = if m = n then π * sin a else 0 := by
  have e : ∀ x : ℝ, cos (m * x - a) * sin (n * x)
      = 1 / 2 * cos (((m : ℤ) + n : ℤ) * x - (a + π / 2)) - 1 / 2 * cos (((m : ℤ) - n : ℤ) * x - (a + π / 2)) := by
    intro x
    push_cast
    rw [show ((m : ℝ) - n) * x - (a + π / 2) = (m * x - a) - n * x - π / 2 by ring,
      show ((m : ℝ) + n) * x - (a + π / 2) = (m * x - a) + n * x - π / 2 by ring,
      cos_sub_pi_div_two, cos_sub_pi_div_two, sin_sub (m * x - a), sin_add (m * x - a)]
    ring
  simp only [e]
  rw [intervalIntegral.integral_sub ((by fun_prop : Continuous fun x : ℝ => _).intervalIntegrable _ _)
    ((by fun_prop : Continuous fun x : ℝ => _).intervalIntegrable _ _), intervalIntegral.integral_const_mul,
    intervalIntegral.integral_const_mul, int_cos_full _ (by omega)]
  split_ifs with h
  · subst h
    simp only [sub_self, Int.cast_zero, zero_mul, zero_sub, cos_neg, cos_add_pi_div_two, intervalIntegral.integral_const,
      smul_eq_mul]
    ring
  · rw [int_cos_full _ (by omega)]; simp

private lemma int_cos_zero (n : ℕ) (hn : 0 < n) : ∫ x in (0 : ℝ)..(2 * π), cos (n * x) = 0 := by
  have := int_cos_full n (by omega) 0
  simpa using this

private lemma int_sin_zero (n : ℕ) (hn : 0 < n) : ∫ x in (0 : ℝ)..(2 * π), sin (n * x) = 0 := by
  have := int_cos_full n (by omega) (π / 2)
  simpa [cos_sub_pi_div_two] using this

private lemma kj_against {rho : ℝ} (h0 : 0 ≤ rho) (h1 : rho < 1) (mu gamma lam : ℝ) {h : ℝ → ℝ} (hc : Continuous h)
    (hb : ∀ x, |h x| ≤ 1) (h00 : ∫ x in (0 : ℝ)..(2 * π), h x = 0) (n : ℕ) (c : ℝ)
    (horth : ∀ p : ℕ, ∫ x in (0 : ℝ)..(2 * π), cos (((p + 1 : ℕ) : ℝ) * x - ((p + 1) * mu + p * lam)) * h x
      = if p + 1 = n + 1 then π * c else 0) :
    ∫ x in (0 : ℝ)..(2 * π), kjDensity mu gamma rho lam x * h x = gamma * rho ^ n * c := by
  have hS := kj_hasSum_integral h0 h1 mu lam 0 (2 * π) hc hb
  have hval : HasSum (fun p : ℕ => ∫ x in (0 : ℝ)..(2 * π), rho ^ p * cos ((p + 1) * (x - mu) - p * lam) * h x)
      (rho ^ n * (π * c)) := by
    have e : ∀ p : ℕ, ∫ x in (0 : ℝ)..(2 * π), rho ^ p * cos ((p + 1) * (x - mu) - p * lam) * h x
        = if p = n then rho ^ n * (π * c) else 0 := by
      intro p
      have e1 : ∀ x : ℝ, rho ^ p * cos ((p + 1) * (x - mu) - p * lam) * h x
          = rho ^ p * (cos (((p + 1 : ℕ) : ℝ) * x - ((p + 1) * mu + p * lam)) * h x) := by
        intro x
        rw [show ((p : ℝ) + 1) * (x - mu) - p * lam = ((p + 1 : ℕ) : ℝ) * x - ((p + 1) * mu + p * lam) by
          push_cast; ring]
        ring
      simp only [e1]
      rw [intervalIntegral.integral_const_mul, horth]
      by_cases hp : p = n
      · subst hp; simp
      · rw [if_neg (by omega), if_neg hp, mul_zero]
    simp only [e]
    exact hasSum_ite_eq n _
  have hK := hS.unique hval
  have hk := kj_kernel_continuous h0 h1 mu lam
  have e : ∀ x, kjDensity mu gamma rho lam x * h x = 1 / (2 * π) * h x + gamma / π * ((cos (x - mu) - rho * cos lam)
      / (1 + rho ^ 2 - 2 * rho * cos (x - mu - lam)) * h x) := by
    intro x
    unfold kjDensity
    have := pi_ne_zero
    have := (kj_den_pos h0 h1 (x - mu - lam)).ne'
    field_simp
  simp only [e]
  have i1 : IntervalIntegrable (fun x => 1 / (2 * π) * h x) volume 0 (2 * π) := (hc.const_mul _).intervalIntegrable _ _
  have i2 : IntervalIntegrable (fun x => gamma / π * ((cos (x - mu) - rho * cos lam)
      / (1 + rho ^ 2 - 2 * rho * cos (x - mu - lam)) * h x)) volume 0 (2 * π) :=
    ((hk.mul hc).const_mul _).intervalIntegrable _ _
  rw [intervalIntegral.integral_add i1 i2, intervalIntegral.integral_const_mul,
    intervalIntegral.integral_const_mul, h00, hK]
  have := pi_ne_zero
  field_simp
  ring

theorem kj_moment_cos {rho : ℝ} (h0 : 0 ≤ rho) (h1 : rho < 1) (mu gamma lam : ℝ) (n : ℕ) :
    ∫ x in (0 : ℝ)..(2 * π), kjDensity mu gamma rho lam x * cos ((n + 1 : ℕ) * x)
      = gamma * rho ^ n * cos ((n + 1) * mu + n * lam) := by
  refine kj_against h0 h1 mu gamma lam (by fun_prop) (fun x => abs_cos_le_one _) (int_cos_zero _ (by omega)) n _ ?_
  intro p
  rw [kj_orth_cos _ _ (by omega) (by omega)]
  split_ifs with h
  · rw [show p = n by omega]
  · rfl

theorem kj_moment_sin {rho : ℝ} (h0 : 0 ≤ rho) (h1 : rho < 1) (mu gamma lam : ℝ) (n : ℕ) :
    ∫ x in (0 : ℝ)..(2 * π), kjDensity mu gamma rho lam x * sin ((n + 1 : ℕ) * x)
      = gamma * rho ^ n * sin ((n + 1) * mu + n * lam) := by
  refine kj_against h0 h1 mu gamma lam (by fun_prop) (fun x => abs_sin_le_one _) (int_sin_zero _ (by omega)) n _ ?_
  intro p
  rw [kj_orth_sin _ _ (by omega) (by omega)]
  split_ifs with h
  · rw [show p = n by omega]
  · rfl

/-! ## The series of the code -/

/-- The truncated series with `P` terms. -/
noncomputable def kjPartial (mu gamma rho lam : ℝ) (P : ℕ) (x : ℝ) : ℝ :=
  x / (2 * π) + ∑ p ∈ Finset.range P, gamma / π * (rho ^ p * ((sin ((p + 1) * x - ((p + 1) * mu + p * lam))
        + sin ((p + 1) * mu + p * lam)) / (p + 1)))

theorem kjSeries_eq {s : KJ} (hg0 : 1 / 10 ^ 12 < s.gamma) (hg1 : s.gamma ≤ 1 - 1 / 10 ^ 12)
    (hr0 : 1 / 10 ^ 12 < s.rho) (hr1 : s.rho ≤ 1 - 1 / 10 ^ 12) (x : ℝ) :
    kjSeries x s = kjPartial s.mu s.gamma s.rho s.lam (kjTerms s.gamma s.rho) x := by
  have h12 : (0 : ℝ) < 1 / 10 ^ 12 := by positivity
  have c1 : clip s.rho 0 (1 - 1 / 10 ^ 12) = s.rho := by
    unfold clip; rw [max_eq_left (by linarith), min_eq_left hr1]
  have c2 : clip s.gamma 0 (1 - 1 / 10 ^ 12) = s.gamma := by
    unfold clip; rw [max_eq_left (by linarith), min_eq_left hg1]
  unfold kjSeries
  rw [if_neg (by push Not; exact ⟨hg0, hr0⟩)]
  simp only [c1, c2]
  unfold kjPartial
  rw [neg_mul, sub_neg_eq_add, add_assoc, ← mul_add, ← Finset.sum_add_distrib, Finset.mul_sum]
  congr 1
  refine Finset.sum_congr rfl fun p _ => ?_
  have hph : kjPhase s.mu s.lam (p + 1) = ((p + 1) * s.mu + p * s.lam)
      - (⌊((p + 1) * s.mu + p * s.lam) / (2 * π)⌋ : ℤ) * (2 * π) := by
    unfold kjPhase pymod
    push_cast
    rw [show (p : ℝ) + 1 - 1 = p by ring]
    ring
  rw [hph, sin_sub_int_mul_two_pi, show ∀ a b c : ℝ, a - (b - c) = a - b + c from fun a b c => by ring,
    sin_add_int_mul_two_pi]
  unfold kjCoeff
  push_cast
  have : ((p : ℝ) + 1) ≠ 0 := by positivity
  field_simp

/-- The remainder of the series. -/
theorem kjPartial_err {gamma rho : ℝ} (hg : 0 ≤ gamma) (h0 : 0 ≤ rho) (h1 : rho < 1) (mu lam : ℝ) (P : ℕ) (x : ℝ) :
    |kjPartial mu gamma rho lam P x - ∫ t in (0 : ℝ)..x, kjDensity mu gamma rho lam t|
      ≤ 2 * gamma / (π * (P + 1)) * (rho ^ P / (1 - rho)) := by
  have h := kj_integral h0 h1 mu gamma lam x
  set f : ℕ → ℝ := fun p => gamma / π * (rho ^ p * ((sin ((p + 1) * x - ((p + 1) * mu + p * lam))
        + sin ((p + 1) * mu + p * lam)) / (p + 1))) with hf
  have ht := (hasSum_nat_add_iff' P).2 h
  have hg' : HasSum (fun n : ℕ => 2 * gamma / (π * (P + 1)) * (rho ^ P * rho ^ n))
      (2 * gamma / (π * (P + 1)) * (rho ^ P * (1 - rho)⁻¹)) :=
    ((hasSum_geometric_of_lt_one h0 h1).mul_left _).mul_left _
  have hb := tsum_of_norm_bounded hg' (f := fun n => f (n + P)) (fun n => by
    rw [hf]
    simp only
    rw [Real.norm_eq_abs, abs_mul, abs_mul, abs_div, abs_div, abs_of_nonneg hg, abs_of_pos pi_pos,
      abs_of_nonneg (pow_nonneg h0 _)]
    have hpos : (0 : ℝ) < ((n + P : ℕ) : ℝ) + 1 := by positivity
    rw [abs_of_pos hpos]
    have hs : |sin ((((n + P : ℕ) : ℝ) + 1) * x - ((((n + P : ℕ) : ℝ) + 1) * mu + ((n + P : ℕ) : ℝ) * lam))
        + sin ((((n + P : ℕ) : ℝ) + 1) * mu + ((n + P : ℕ) : ℝ) * lam)| ≤ 2 := by
      refine (abs_add_le _ _).trans ?_
      have := abs_sin_le_one ((((n + P : ℕ) : ℝ) + 1) * x - ((((n + P : ℕ) : ℝ) + 1) * mu + ((n + P : ℕ) : ℝ) * lam))
      have := abs_sin_le_one ((((n + P : ℕ) : ℝ) + 1) * mu + ((n + P : ℕ) : ℝ) * lam)
      linarith
    have hP : (0 : ℝ) < (P : ℝ) + 1 := by positivity
    have hPn : (P : ℝ) + 1 ≤ ((n + P : ℕ) : ℝ) + 1 := by push_cast; linarith [Nat.cast_nonneg (α := ℝ) n]
    calc _ ≤ gamma / π * (rho ^ (n + P) * (2 / ((P : ℝ) + 1))) := by
          have := pi_pos
          gcongr
      _ = _ := by rw [pow_add]; field_simp)
  rw [ht.tsum_eq, Real.norm_eq_abs] at hb
  unfold kjPartial
  rw [← abs_neg]
  refine le_trans (le_of_eq ?_) (hb.trans (le_of_eq ?_))
  · congr 1; ring
  · rw [div_eq_mul_inv (rho ^ P)]

theorem kjCount_spec (gamma rho : ℝ) (k P : ℕ) :
    P ≤ kjCount gamma rho k P ∧ kjCount gamma rho k P ≤ P + k ∧
    (gamma / (max (kjCount gamma rho k P) 1 : ℕ) * rho ^ (kjCount gamma rho k P - 1) / max (1 / 10 ^ 12) (1 - rho)
        ≤ 1 / 10 ^ 12 ∨ kjCount gamma rho k P = P + k) := by
  induction k generalizing P with
  | zero => exact ⟨le_rfl, le_rfl, Or.inr rfl⟩
  | succ k ih =>
    unfold kjCount
    split_ifs with h
    · exact ⟨le_rfl, by omega, Or.inl h⟩
    · obtain ⟨a, b, c⟩ := ih (P + 1)
      refine ⟨by omega, by omega, ?_⟩
      rcases c with c | c
      · exact Or.inl c
      · exact Or.inr (by omega)

theorem kj_pow_bound : (0.995 : ℝ) ^ 5000 ≤ 1.31 / 10 ^ 11 := by
  have h1 : (0.995 : ℝ) ^ 200 ≤ 0.36697 := by norm_num
  calc (0.995 : ℝ) ^ 5000 = (0.995 ^ 200) ^ 25 := by rw [← pow_mul]
    _ ≤ 0.36697 ^ 25 := by gcongr
    _ ≤ _ := by norm_num

/-- The number of terms and what it gives for the remainders. -/
theorem kjTerms_bound {gamma rho : ℝ} (hg0 : 0 ≤ gamma) (hg1 : gamma ≤ 1) (h0 : 0 < rho) (h1 : rho ≤ 0.995) :
    1 ≤ kjTerms gamma rho ∧ kjTerms gamma rho ≤ 5000 ∧
    gamma * rho ^ kjTerms gamma rho / (1 - rho) ≤ kjTerms gamma rho / 10 ^ 12 := by
  have hmax : max (1 / 10 ^ 12) (1 - rho) = 1 - rho := max_eq_right (by norm_num at h1 ⊢; linarith)
  have h1r : 0.005 ≤ 1 - rho := by norm_num at h1 ⊢; linarith
  have hpos : 0 < 1 - rho := lt_of_lt_of_le (by norm_num) h1r
  have hlt : rho ≤ 1 := by linarith
  unfold kjTerms
  rw [if_neg h0.ne']
  obtain ⟨a, b, c⟩ := kjCount_spec gamma rho 5000 1
  by_cases hN : kjCount gamma rho 5000 1 = 5001
  · rw [hN, show min 5001 5000 = 5000 from rfl]
    refine ⟨by norm_num, le_rfl, ?_⟩
    have hp : rho ^ 5000 ≤ 1.31 / 10 ^ 11 := (pow_le_pow_left₀ h0.le h1 5000).trans kj_pow_bound
    rw [div_le_iff₀ hpos]
    calc gamma * rho ^ 5000 ≤ 1 * (1.31 / 10 ^ 11) := by gcongr
      _ ≤ ((5000 : ℕ) : ℝ) / 10 ^ 12 * 0.005 := by norm_num
      _ ≤ _ := by gcongr
  · rcases c with c | c
    · rw [min_eq_left (by omega)]
      set N := kjCount gamma rho 5000 1
      refine ⟨a, by omega, ?_⟩
      rw [hmax, Nat.max_eq_left a] at c
      have hNpos : (0 : ℝ) < N := by exact_mod_cast a
      have e : rho ^ N ≤ rho ^ (N - 1) := pow_le_pow_of_le_one h0.le hlt (by omega)
      calc gamma * rho ^ N / (1 - rho) ≤ gamma * rho ^ (N - 1) / (1 - rho) := by gcongr
        _ = N * (gamma / N * rho ^ (N - 1) / (1 - rho)) := by field_simp
        _ ≤ N * (1 / 10 ^ 12) := by gcongr
        _ = _ := by ring
    · exact absurd c hN

/-- The series of the code is within `1e-12` of the distribution function. -/
theorem kjSeries_err {s : KJ} (hg0 : 1 / 10 ^ 12 < s.gamma) (hg1 : s.gamma ≤ 1 - 1 / 10 ^ 12)
    (hr0 : 1 / 10 ^ 12 < s.rho) (hr1 : s.rho ≤ 0.995) (x : ℝ) :
    |kjSeries x s - ∫ t in (0 : ℝ)..x, kjDensity s.mu s.gamma s.rho s.lam t| ≤ 1 / 10 ^ 12 := by
  have h12 : (0 : ℝ) < 1 / 10 ^ 12 := by positivity
  have hg : 0 ≤ s.gamma := by linarith
  have hr : 0 < s.rho := by linarith
  have hr' : s.rho < 1 := lt_of_le_of_lt hr1 (by norm_num)
  rw [kjSeries_eq hg0 hg1 hr0 (hr1.trans (by norm_num))]
  refine (kjPartial_err hg hr.le hr' s.mu s.lam _ x).trans ?_
  obtain ⟨a, b, c⟩ := kjTerms_bound hg (by linarith) hr hr1
  set P := kjTerms s.gamma s.rho
  have hP : (0 : ℝ) < (P : ℝ) + 1 := by positivity
  have hpi := pi_gt_three
  have hpos : 0 < 1 - s.rho := by linarith
  calc 2 * s.gamma / (π * (P + 1)) * (s.rho ^ P / (1 - s.rho))
      = 2 / (π * (P + 1)) * (s.gamma * s.rho ^ P / (1 - s.rho)) := by ring
    _ ≤ 2 / (π * (P + 1)) * (P / 10 ^ 12) := by gcongr
    _ ≤ 2 / (3 * (P + 1)) * ((P + 1) / 10 ^ 12) := by gcongr; linarith
    _ = 2 / 3 / 10 ^ 12 := by field_simp
    _ ≤ _ := by norm_num

/-- The code's series starts at 0 and ends at 1. -/
theorem kjPartial_ends (mu gamma rho lam : ℝ) (P : ℕ) :
    kjPartial mu gamma rho lam P 0 = 0 ∧ kjPartial mu gamma rho lam P (2 * π) = 1 := by
  unfold kjPartial
  constructor
  · rw [zero_div, zero_add]
    refine Finset.sum_eq_zero fun p _ => ?_
    rw [mul_zero, zero_sub, sin_neg]; simp
  · rw [div_self (by positivity), Finset.sum_eq_zero, add_zero]
    intro p _
    have : sin (((p : ℝ) + 1) * (2 * π) - ((p + 1) * mu + p * lam)) = - sin ((p + 1) * mu + p * lam) := by
      have := sin_nat_mul_two_pi_sub ((p + 1) * mu + p * lam) (p + 1)
      push_cast at this
      exact this
    rw [this]; simp

/-- Where the density is not tiny, the code's series increases. -/
theorem kjPartial_mono {gamma rho : ℝ} (hg0 : 0 ≤ gamma) (hg1 : gamma ≤ 1) (h0 : 0 < rho) (h1 : rho ≤ 0.995)
    (mu lam : ℝ) (hd : ∀ t, 2 / 10 ^ 9 ≤ kjDensity mu gamma rho lam t) :
    StrictMono (kjPartial mu gamma rho lam (kjTerms gamma rho)) := by
  have h1' : rho < 1 := lt_of_le_of_lt h1 (by norm_num)
  obtain ⟨a, b, c⟩ := kjTerms_bound hg0 hg1 h0 h1
  set P := kjTerms gamma rho
  have hpi := pi_gt_three
  have hderiv : ∀ x, HasDerivAt (kjPartial mu gamma rho lam P)
      (1 / (2 * π) + ∑ p ∈ Finset.range P, gamma / π * (rho ^ p * cos ((p + 1) * (x - mu) - p * lam))) x := by
    intro x
    unfold kjPartial
    have h2 : HasDerivAt (fun x => ∑ p ∈ Finset.range P,
        gamma / π * (rho ^ p * ((sin ((p + 1) * x - ((p + 1) * mu + p * lam))
        + sin ((p + 1) * mu + p * lam)) / (p + 1))))
        (∑ p ∈ Finset.range P, gamma / π * (rho ^ p * cos ((p + 1) * (x - mu) - p * lam))) x := by
      refine HasDerivAt.fun_sum fun p _ => ?_
      have h3 : HasDerivAt (fun t : ℝ => ((p : ℝ) + 1) * t - ((p + 1) * mu + p * lam)) (((p : ℝ) + 1) * 1) x :=
        ((hasDerivAt_id x).const_mul _).sub_const _
      have h4 := (((h3.sin.add_const (sin ((p + 1) * mu + p * lam))).div_const ((p : ℝ) + 1)).const_mul
        (rho ^ p)).const_mul (gamma / π)
      refine h4.congr_deriv ?_
      have : (p : ℝ) + 1 ≠ 0 := by positivity
      rw [show ((p : ℝ) + 1) * (x - mu) - p * lam = (p + 1) * x - ((p + 1) * mu + p * lam) by ring]
      field_simp
    exact ((hasDerivAt_id x).div_const (2 * π)).add h2
  refine strictMono_of_hasDerivAt_pos hderiv fun x => ?_
  have hS := (kj_hasSum h0.le h1' (x - mu) lam).mul_left (gamma / π)
  have ht := (hasSum_nat_add_iff' P).2 hS
  have hg' : HasSum (fun n : ℕ => gamma / π * (rho ^ P * rho ^ n)) (gamma / π * (rho ^ P * (1 - rho)⁻¹)) :=
    ((hasSum_geometric_of_lt_one h0.le h1').mul_left _).mul_left _
  have hb := tsum_of_norm_bounded hg'
    (f := fun n : ℕ => gamma / π * (rho ^ (n + P) * cos ((((n + P : ℕ) : ℝ) + 1) * (x - mu) - ((n + P : ℕ) : ℝ) * lam)))
    (fun n => by
      rw [Real.norm_eq_abs, abs_mul, abs_mul, abs_of_nonneg (show 0 ≤ gamma / π by positivity),
        abs_of_nonneg (pow_nonneg h0.le _)]
      have := abs_cos_le_one ((((n + P : ℕ) : ℝ) + 1) * (x - mu) - ((n + P : ℕ) : ℝ) * lam)
      calc _ ≤ gamma / π * (rho ^ (n + P) * 1) := by gcongr
        _ = _ := by rw [pow_add]; ring)
  rw [ht.tsum_eq, Real.norm_eq_abs] at hb
  have hb2 : gamma / π * (rho ^ P * (1 - rho)⁻¹) < 2 / 10 ^ 9 := by
    have hP : (P : ℝ) ≤ 5000 := by exact_mod_cast b
    calc gamma / π * (rho ^ P * (1 - rho)⁻¹) = (gamma * rho ^ P / (1 - rho)) / π := by
          rw [div_eq_mul_inv (gamma * rho ^ P)]; ring
      _ ≤ (P / 10 ^ 12) / 3 := by gcongr
      _ ≤ (5000 / 10 ^ 12) / 3 := by gcongr
      _ < _ := by norm_num
  have e : kjDensity mu gamma rho lam x = 1 / (2 * π) + gamma / π * ((cos (x - mu) - rho * cos lam)
      / (1 + rho ^ 2 - 2 * rho * cos (x - mu - lam))) := by
    unfold kjDensity
    have := pi_ne_zero
    have := (kj_den_pos h0.le h1' (x - mu - lam)).ne'
    field_simp
  have hx := hd x
  rw [e] at hx
  have := abs_lt.1 (hb.trans_lt hb2)
  show (0 : ℝ) < 1 / (2 * π) + ∑ p ∈ Finset.range P, gamma / π * (rho ^ p * cos ((p + 1) * (x - mu) - p * lam))
  linarith [this.2]

/-- The exact feasibility constraint cannot be relaxed. -/
theorem kj_neg_exists {gamma rho : ℝ} (h0 : 0 ≤ rho) (h1 : rho < 1) (hg0 : 0 ≤ gamma) (hg : gamma < 1)
    (mu lam : ℝ) (hf : (1 - gamma) ^ 2 < (rho * cos lam - gamma) ^ 2 + (rho * sin lam) ^ 2) :
    ∃ x, kjDensity mu gamma rho lam x < 0 := by
  set A := rho * cos lam - gamma with hA
  set B := rho * sin lam with hB
  set R := sqrt (A ^ 2 + B ^ 2) with hR
  have hR2 : R ^ 2 = A ^ 2 + B ^ 2 := sq_sqrt (by positivity)
  have hR1 : 1 - gamma < R := lt_sqrt_of_sq_lt hf
  have hR0 : 0 < R := by linarith
  have hRle : R < 1 + gamma := by
    rw [hR, sqrt_lt' (by linarith)]
    have : A ^ 2 + B ^ 2 = rho ^ 2 - 2 * gamma * rho * cos lam + gamma ^ 2 := by
      rw [hA, hB]; nlinarith [sin_sq_add_cos_sq lam]
    rw [this]
    have h2 := mul_nonneg (mul_nonneg hg0 h0) (by linarith [neg_one_le_cos lam] : 0 ≤ 1 + cos lam)
    nlinarith [mul_nonneg hg0 h0]
  obtain ⟨d, hd1, hd2⟩ : ∃ d, R * cos d = A ∧ R * sin d = B := by
    refine ⟨Complex.arg ⟨A, B⟩, ?_, ?_⟩
    · have := Complex.norm_mul_cos_arg ⟨A, B⟩
      rwa [Complex.norm_eq_sqrt_sq_add_sq] at this
    · have := Complex.norm_mul_sin_arg ⟨A, B⟩
      rwa [Complex.norm_eq_sqrt_sq_add_sq] at this
  refine ⟨d + mu, ?_⟩
  have hD := kj_den_pos h0 h1 (d + mu - mu - lam)
  unfold kjDensity
  refine div_neg_of_neg_of_pos ?_ (by positivity)
  rw [show ∀ a : ℝ, 1 + a / (1 + rho ^ 2 - 2 * rho * cos (d + mu - mu - lam))
      = (1 * (1 + rho ^ 2 - 2 * rho * cos (d + mu - mu - lam)) + a) / (1 + rho ^ 2 - 2 * rho * cos (d + mu - mu - lam)) from
    fun a => by rw [add_div, one_mul, div_self hD.ne']]
  refine div_neg_of_neg_of_pos ?_ hD
  rw [add_sub_cancel_right]
  have hn : (1 * (1 + rho ^ 2 - 2 * rho * cos (d - lam)) + 2 * gamma * (cos d - rho * cos lam))
      = (cos d - A) ^ 2 + (sin d - B) ^ 2 - gamma ^ 2 := by
    rw [hA, hB, cos_sub]
    nlinarith [sin_sq_add_cos_sq d, sin_sq_add_cos_sq lam]
  rw [hn, ← hd1, ← hd2]
  nlinarith [sin_sq_add_cos_sq d]

end Verif
