import Verif.Model.DistJonesPewsey
import Verif.Spec.Families
import Verif.Props.DistVonMises
import Mathlib.Analysis.SpecialFunctions.Integrals.Basic
import Mathlib.Analysis.SpecialFunctions.Pow.Continuity
import Mathlib.Analysis.SpecialFunctions.Trigonometric.DerivHyp

/-! # Facts about the Jones-Pewsey kernel and its series -/

set_option autoImplicit false

namespace Verif

open Real MeasureTheory Verif.Spec

theorem floatTiny_pos : 0 < floatTiny := by unfold floatTiny; positivity

/-- The base of the kernel is at least `exp(-|A|)`. -/
theorem jp_base_ge (A c : ℝ) (h1 : -1 ≤ c) (h2 : c ≤ 1) : exp (-|A|) ≤ cosh A + sinh A * c := by
  rcases le_total 0 A with h | h
  · have hs : 0 ≤ sinh A := sinh_nonneg_iff.2 h
    rw [abs_of_nonneg h, ← cosh_sub_sinh]
    nlinarith
  · have hs : sinh A ≤ 0 := sinh_nonpos_iff.2 h
    rw [abs_of_nonpos h, neg_neg, ← cosh_add_sinh]
    nlinarith

theorem jp_base_pos (A phi : ℝ) : 0 < cosh A + sinh A * cos phi :=
  lt_of_lt_of_le (exp_pos _) (jp_base_ge A _ (neg_one_le_cos phi) (cos_le_one phi))

theorem exp_neg_700 : floatTiny ≤ exp (-700) := by
  unfold floatTiny
  rw [exp_neg, ← one_div]
  apply one_div_le_one_div_of_le (exp_pos _)
  have h : exp 1 ≤ 2.72 := by linarith [exp_one_lt_d9]
  have h2 : (exp 1) ^ 70 ≤ (2.72 : ℝ) ^ 70 := pow_le_pow_left₀ (exp_pos _).le h 70
  have h3 : exp 700 = ((exp 1) ^ 70) ^ 10 := by rw [← pow_mul, ← exp_nat_mul]; norm_num
  have h4 : (2.72 : ℝ) ^ 70 ≤ 2 ^ 102 := by norm_num
  rw [h3]
  calc ((exp 1) ^ 70) ^ 10 ≤ ((2 : ℝ) ^ 102) ^ 10 := pow_le_pow_left₀ (by positivity) (h2.trans h4) 10
    _ = 2 ^ 1020 := by rw [← pow_mul]
    _ ≤ 2 ^ 1022 := pow_le_pow_right₀ (by norm_num) (by norm_num)

theorem jpKernel_eq {kappa psi : ℝ} (hp : jpPsiTol ≤ |psi|) (hA : |kappa * psi| ≤ 700) (phi : ℝ) :
    jpKernel phi kappa psi = (cosh (kappa * psi) + sinh (kappa * psi) * cos phi) ^ (1 / psi) := by
  unfold jpKernel
  rw [if_neg (not_lt.2 hp), max_eq_left]
  refine exp_neg_700.trans (le_trans ?_ (jp_base_ge _ _ (neg_one_le_cos phi) (cos_le_one phi)))
  exact exp_le_exp.2 (by linarith)

theorem jpKernel_pos (phi kappa psi : ℝ) : 0 < jpKernel phi kappa psi := by
  unfold jpKernel
  split_ifs
  · exact exp_pos _
  · exact rpow_pos_of_pos (lt_of_lt_of_le floatTiny_pos (le_max_right _ _)) _

theorem jpKernel_continuous (kappa psi : ℝ) : Continuous fun phi => jpKernel phi kappa psi := by
  unfold jpKernel
  split_ifs
  · fun_prop
  · refine Continuous.rpow_const (by fun_prop) fun x => Or.inl ?_
    exact (lt_of_lt_of_le floatTiny_pos (le_max_right _ _)).ne'

theorem jpKernel_neg (phi kappa psi : ℝ) : jpKernel (-phi) kappa psi = jpKernel phi kappa psi := by
  unfold jpKernel; rw [cos_neg]

theorem jpKernel_periodic (kappa psi : ℝ) : Function.Periodic (fun phi => jpKernel phi kappa psi) (2 * π) := by
  intro phi; simp only [jpKernel, cos_add_two_pi]

/-- The mass of the kernel, about any centre. -/
theorem jpKernel_mass (mu kappa psi : ℝ) :
    ∫ x in (0 : ℝ)..(2 * π), jpKernel (x - mu) kappa psi = 2 * ∫ t in (0 : ℝ)..π, jpKernel t kappa psi :=
  period_even (jpKernel_continuous kappa psi) (jpKernel_periodic kappa psi)
    (fun t => jpKernel_neg t kappa psi) mu

theorem jpKernel_mass_pos (mu kappa psi : ℝ) : 0 < ∫ x in (0 : ℝ)..(2 * π), jpKernel (x - mu) kappa psi :=
  intervalIntegral.intervalIntegral_pos_of_pos
    (((jpKernel_continuous kappa psi).comp (continuous_id.sub continuous_const)).intervalIntegrable _ _)
    (fun _ => jpKernel_pos _ _ _) two_pi_pos

theorem jpKernel_mass_pi (mu kappa psi : ℝ) :
    ∫ x in (-π)..π, jpKernel (x - mu) kappa psi = ∫ x in (0 : ℝ)..(2 * π), jpKernel (x - mu) kappa psi := by
  have hper : Function.Periodic (fun x => jpKernel (x - mu) kappa psi) (2 * π) := by
    intro x
    show jpKernel (x + 2 * π - mu) kappa psi = jpKernel (x - mu) kappa psi
    rw [show x + 2 * π - mu = x - mu + 2 * π by ring]
    exact jpKernel_periodic kappa psi (x - mu)
  have := hper.intervalIntegral_add_eq (-π) 0
  rw [show -π + 2 * π = π by ring, zero_add] at this
  exact this

/-- Laplace's integral gives the mass of the kernel. -/
theorem jp_legendre_mass {kappa psi : ℝ} (hp : jpPsiTol ≤ |psi|) (hA : |kappa * psi| ≤ 700) :
    ∫ t in (0 : ℝ)..π, jpKernel t kappa psi = π * legendreP (1 / psi) (cosh (kappa * psi)) := by
  unfold legendreP
  rw [← mul_assoc, mul_one_div_cancel pi_ne_zero, one_mul]
  simp only [jpKernel_eq hp hA]
  set A := kappa * psi
  have hs : sqrt (cosh A ^ 2 - 1) = |sinh A| := by
    rw [cosh_sq, add_sub_cancel_right, sqrt_sq_eq_abs]
  rw [hs]
  rcases le_total 0 (sinh A) with h | h
  · rw [abs_of_nonneg h]
  · rw [abs_of_nonpos h]
    have := intervalIntegral.integral_comp_sub_left
      (fun t => (cosh A + -sinh A * cos t) ^ (1 / psi)) (a := 0) (b := π) π
    rw [sub_self, sub_zero] at this
    rw [← this]
    refine intervalIntegral.integral_congr fun t _ => ?_
    simp only [cos_pi_sub]
    congr 1
    ring

theorem jpQuadConst_mul (mu kappa psi : ℝ) :
    jpQuadConst mu kappa psi * ∫ x in (0 : ℝ)..(2 * π), jpKernel (x - mu) kappa psi = 1 := by
  unfold jpQuadConst
  rw [jpKernel_mass_pi, one_div, inv_mul_cancel₀ (jpKernel_mass_pos mu kappa psi).ne']

/-- The normaliser is right. -/
theorem jpConst_mul {lpmv : ℝ → ℝ → Option ℝ} (hl : LpmvExact lpmv) {kappa psi : ℝ} (hk : jpKappaTol ≤ kappa)
    (hA : |kappa * psi| ≤ 700) (mu : ℝ) :
    jpConst lpmv mu kappa psi * ∫ x in (0 : ℝ)..(2 * π), jpKernel (x - mu) kappa psi = 1 := by
  unfold jpConst
  rw [if_neg (not_lt.2 hk)]
  split_ifs with hp
  · rw [jpKernel_mass]
    have e : ∫ t in (0 : ℝ)..π, jpKernel t kappa psi = π * besselI 0 kappa := by
      simp only [jpKernel, if_pos hp]
      unfold besselI
      simp
    rw [e]
    have := besselI_zero_pos kappa
    have := pi_pos
    field_simp
  · push Not at hp
    rcases hleg : jpLegendre lpmv kappa psi with _ | c
    · exact jpQuadConst_mul mu kappa psi
    · simp only
      split_ifs
      · unfold jpLegendre at hleg
        rcases hv : lpmv (1 / psi) (cosh (kappa * psi)) with _ | v
        · rw [hv] at hleg; cases hleg
        · rw [hv] at hleg
          simp only at hleg
          split_ifs at hleg with h0
          cases hleg
          rw [jpKernel_mass, jp_legendre_mass hp hA, ← hl _ _ v (one_le_cosh _) hv]
          have := pi_pos
          have : 0 < v := not_le.1 h0
          field_simp
      · exact jpQuadConst_mul mu kappa psi

/-! ## Skewing -/

/-- The skewing term carries no mass. -/
theorem skew_zero {g : ℝ → ℝ} (hg : Continuous g) (hper : Function.Periodic g (2 * π))
    (heven : ∀ t, g (-t) = g t) (xi : ℝ) : ∫ x in (0 : ℝ)..(2 * π), g (x - xi) * sin (x - xi) = 0 :=
  period_odd (g := fun t => g t * sin t) (hg.mul continuous_sin)
    (fun t => by show g (t + 2 * π) * sin (t + 2 * π) = _; rw [hper t, sin_add_two_pi])
    (fun t => by simp only [heven, sin_neg]; ring) xi

/-! ## The series -/

/-- The partial Fourier sum with coefficients `c`. -/
noncomputable def jpFN (c : ℕ → ℝ) (N : ℕ) (phi : ℝ) : ℝ :=
  1 / (2 * π) * (1 + 2 * ∑ i ∈ Finset.range N, c (i + 1) * cos (((i + 1 : ℕ) : ℝ) * phi))

theorem jpFN_continuous (c : ℕ → ℝ) (N : ℕ) : Continuous (jpFN c N) := by
  unfold jpFN; fun_prop

theorem jpH_deriv (c : ℕ → ℝ) (N : ℕ) (phi : ℝ) : HasDerivAt (jpH c N) (jpFN c N phi) phi := by
  unfold jpH jpFN
  have hpi := pi_pos
  have hs : HasDerivAt (fun phi => ∑ i ∈ Finset.range N, sin (phi * ((i + 1 : ℕ) : ℝ)) * (c (i + 1) / ((i + 1 : ℕ) : ℝ)))
      (∑ i ∈ Finset.range N, c (i + 1) * cos (((i + 1 : ℕ) : ℝ) * phi)) phi := by
    refine HasDerivAt.fun_sum fun i _ => ?_
    have h1 : HasDerivAt (fun phi : ℝ => phi * ((i + 1 : ℕ) : ℝ)) (((i + 1 : ℕ) : ℝ)) phi := by
      simpa using (hasDerivAt_id phi).mul_const (((i + 1 : ℕ) : ℝ))
    have hi : (((i + 1 : ℕ) : ℝ)) ≠ 0 := by positivity
    refine (h1.sin.mul_const (c (i + 1) / ((i + 1 : ℕ) : ℝ))).congr_deriv ?_
    rw [mul_comm phi]
    field_simp
  refine (((hasDerivAt_id' phi).div_const (2 * π)).fun_add (hs.div_const π)).congr_deriv ?_
  generalize ∑ i ∈ Finset.range N, c (i + 1) * cos (((i + 1 : ℕ) : ℝ) * phi) = S
  field_simp

theorem jpJ_deriv (c : ℕ → ℝ) (N : ℕ) (phi : ℝ) : HasDerivAt (jpJ c N) (jpFN c N phi * sin phi) phi := by
  unfold jpJ jpFN
  have hpi := pi_pos
  have hs : HasDerivAt (fun phi => ∑ i ∈ Finset.range N,
      if i = 0 then c 1 * ((1 - cos (2 * phi)) / 4)
      else 1 / 2 * ((1 - cos (phi * ((i + 1 : ℕ) : ℝ) + phi)) / (((i + 1 : ℕ) : ℝ) + 1)
        - (1 - cos (phi * ((i + 1 : ℕ) : ℝ) - phi)) / (((i + 1 : ℕ) : ℝ) - 1)) * c (i + 1))
      (∑ i ∈ Finset.range N, c (i + 1) * cos (((i + 1 : ℕ) : ℝ) * phi) * sin phi) phi := by
    refine HasDerivAt.fun_sum fun i _ => ?_
    by_cases hi : i = 0
    · subst hi
      simp only [if_true]
      have h1 : HasDerivAt (fun phi : ℝ => 2 * phi) 2 phi := by simpa using (hasDerivAt_id phi).const_mul (2 : ℝ)
      refine (((h1.cos.const_sub 1).div_const 4).const_mul (c 1)).congr_deriv ?_
      rw [sin_two_mul]; norm_num; ring
    · simp only [if_neg hi]
      have hn : (1 : ℝ) < ((i + 1 : ℕ) : ℝ) := by
        have : 1 < i + 1 := by omega
        exact_mod_cast this
      generalize ((i + 1 : ℕ) : ℝ) = n at hn
      have h1 : HasDerivAt (fun phi : ℝ => phi * n + phi) (n + 1) phi := by
        simpa using ((hasDerivAt_id' phi).mul_const n).fun_add (hasDerivAt_id' phi)
      have h2 : HasDerivAt (fun phi : ℝ => phi * n - phi) (n - 1) phi := by
        simpa using ((hasDerivAt_id' phi).mul_const n).fun_sub (hasDerivAt_id' phi)
      refine (((((h1.cos.const_sub 1).div_const (n + 1)).fun_sub ((h2.cos.const_sub 1).div_const (n - 1))).const_mul
        (1 / 2)).mul_const (c (i + 1))).congr_deriv ?_
      have e1 : n + 1 ≠ 0 := by linarith
      have e2 : n - 1 ≠ 0 := by linarith
      rw [neg_mul, neg_neg, neg_mul, neg_neg, mul_div_assoc, mul_div_assoc, div_self e1, div_self e2, sin_add, sin_sub,
        mul_comm n phi]
      ring
  refine ((((hasDerivAt_cos phi).const_sub 1).div_const (2 * π)).fun_add (hs.div_const π)).congr_deriv ?_
  rw [← Finset.sum_mul]
  generalize ∑ i ∈ Finset.range N, c (i + 1) * cos (((i + 1 : ℕ) : ℝ) * phi) = S
  field_simp

theorem jpH_sub (c : ℕ → ℝ) (N : ℕ) (a b : ℝ) : jpH c N b - jpH c N a = ∫ t in a..b, jpFN c N t :=
  (intervalIntegral.integral_eq_sub_of_hasDerivAt (fun x _ => jpH_deriv c N x)
    ((jpFN_continuous c N).intervalIntegrable _ _)).symm

theorem jpJ_sub (c : ℕ → ℝ) (N : ℕ) (a b : ℝ) : jpJ c N b - jpJ c N a = ∫ t in a..b, jpFN c N t * sin t :=
  (intervalIntegral.integral_eq_sub_of_hasDerivAt (fun x _ => jpJ_deriv c N x)
    (((jpFN_continuous c N).mul continuous_sin).intervalIntegrable _ _)).symm

theorem jpH_add_int (c : ℕ → ℝ) (N : ℕ) (phi : ℝ) (k : ℤ) : jpH c N (phi + k * (2 * π)) = jpH c N phi + k := by
  unfold jpH
  have e : ∀ i : ℕ, sin ((phi + k * (2 * π)) * ((i + 1 : ℕ) : ℝ)) = sin (phi * ((i + 1 : ℕ) : ℝ)) := by
    intro i
    rw [show (phi + k * (2 * π)) * ((i + 1 : ℕ) : ℝ) = phi * ((i + 1 : ℕ) : ℝ) + ((k * (i + 1 : ℕ) : ℤ) : ℝ) * (2 * π) by
      push_cast; ring, sin_add_int_mul_two_pi]
  simp only [e]
  have := pi_pos
  field_simp
  ring

theorem jpJ_add_int (c : ℕ → ℝ) (N : ℕ) (phi : ℝ) (k : ℤ) : jpJ c N (phi + k * (2 * π)) = jpJ c N phi := by
  unfold jpJ
  have e0 : cos (phi + k * (2 * π)) = cos phi := cos_add_int_mul_two_pi _ _
  have e1 : cos (2 * (phi + k * (2 * π))) = cos (2 * phi) := by
    rw [show 2 * (phi + k * (2 * π)) = 2 * phi + ((2 * k : ℤ) : ℝ) * (2 * π) by push_cast; ring, cos_add_int_mul_two_pi]
  have e2 : ∀ i : ℕ, cos ((phi + k * (2 * π)) * ((i + 1 : ℕ) : ℝ) + (phi + k * (2 * π))) = cos (phi * ((i + 1 : ℕ) : ℝ) + phi) := by
    intro i
    rw [show (phi + k * (2 * π)) * ((i + 1 : ℕ) : ℝ) + (phi + k * (2 * π))
      = phi * ((i + 1 : ℕ) : ℝ) + phi + ((k * (i + 2 : ℕ) : ℤ) : ℝ) * (2 * π) by push_cast; ring, cos_add_int_mul_two_pi]
  have e3 : ∀ i : ℕ, cos ((phi + k * (2 * π)) * ((i + 1 : ℕ) : ℝ) - (phi + k * (2 * π))) = cos (phi * ((i + 1 : ℕ) : ℝ) - phi) := by
    intro i
    rw [show (phi + k * (2 * π)) * ((i + 1 : ℕ) : ℝ) - (phi + k * (2 * π))
      = phi * ((i + 1 : ℕ) : ℝ) - phi + ((k * i : ℤ) : ℝ) * (2 * π) by push_cast; ring, cos_add_int_mul_two_pi]
  simp only [e0, e1, e2, e3]

/-- The reduction of the two ends mod `2π`, as the code does it. -/
theorem pymod_arc {x mu : ℝ} (h0 : 0 ≤ x) (h1 : x < 2 * π) :
    ∃ k j : ℤ, pymod (x - mu) (2 * π) = x - mu + k * (2 * π) ∧ pymod (-mu) (2 * π) = -mu + j * (2 * π) ∧
      (if pymod (-mu) (2 * π) ≤ pymod (x - mu) (2 * π) then k = j else k = j - 1) := by
  have hp := two_pi_pos
  obtain ⟨k, hk⟩ := pymod_cong (x - mu) (2 * π)
  obtain ⟨j, hj⟩ := pymod_cong (-mu) (2 * π)
  have a0 := pymod_nonneg hp (x - mu)
  have a1 := pymod_lt hp (x - mu)
  have b0 := pymod_nonneg hp (-mu)
  have b1 := pymod_lt hp (-mu)
  refine ⟨k, j, hk, hj, ?_⟩
  have hd : pymod (x - mu) (2 * π) - pymod (-mu) (2 * π) = x + ((k - j : ℤ) : ℝ) * (2 * π) := by
    rw [hk, hj]; push_cast; ring
  split_ifs with hc
  · have hlow : -1 < k - j := by
      by_contra h
      have h' : ((k - j : ℤ) : ℝ) ≤ -1 := by exact_mod_cast not_lt.mp h
      nlinarith
    have hup : k - j < 1 := by
      by_contra h
      have h' : (1 : ℝ) ≤ ((k - j : ℤ) : ℝ) := by exact_mod_cast not_lt.mp h
      nlinarith
    omega
  · have hlow : -2 < k - j := by
      by_contra h
      have h' : ((k - j : ℤ) : ℝ) ≤ -2 := by exact_mod_cast not_lt.mp h
      nlinarith
    have hup : k - j < 0 := by
      by_contra h
      have h' : (0 : ℝ) ≤ ((k - j : ℤ) : ℝ) := by exact_mod_cast not_lt.mp h
      nlinarith [not_le.mp hc]
    omega

/-- The series cdf of the skewed family is the clipped integral of the skewed partial sum. -/
theorem jssSeriesCdf_eq (c : ℕ → ℝ) (N : ℕ) {x xi : ℝ} (lmbd : ℝ) (h0 : 0 ≤ x) (h1 : x < 2 * π) :
    jssSeriesCdf c N x xi lmbd = clip (∫ t in (0 : ℝ)..x, jpFN c N (t - xi) * (1 + lmbd * sin (t - xi))) 0 1 := by
  obtain ⟨k, j, hk, hj, hkj⟩ := pymod_arc (mu := xi) h0 h1
  have hI : ∫ t in (0 : ℝ)..x, jpFN c N (t - xi) * (1 + lmbd * sin (t - xi))
      = (jpH c N (x - xi) - jpH c N (0 - xi)) + lmbd * (jpJ c N (x - xi) - jpJ c N (0 - xi)) := by
    have hc : Continuous fun t => lmbd * (jpFN c N t * sin t) :=
      ((jpFN_continuous c N).mul continuous_sin).const_mul lmbd
    rw [jpH_sub, jpJ_sub, ← intervalIntegral.integral_const_mul, ← intervalIntegral.integral_add
      ((jpFN_continuous c N).intervalIntegrable _ _) (hc.intervalIntegrable _ _),
      ← intervalIntegral.integral_comp_sub_right (fun t => jpFN c N t + lmbd * (jpFN c N t * sin t))]
    exact intervalIntegral.integral_congr fun t _ => by ring
  unfold jssSeriesCdf
  simp only
  rw [hI, zero_sub]
  congr 1
  by_cases hl : 0 < |lmbd|
  · simp only [if_pos hl]
    split_ifs at hkj ⊢ with hc
    · rw [hk, hj, jpH_add_int, jpH_add_int, jpJ_add_int, jpJ_add_int, hkj]; ring
    · rw [hk, hj, jpH_add_int, jpH_add_int, jpJ_add_int, jpJ_add_int, hkj]; push_cast; ring
  · have : lmbd = 0 := by
      have := abs_nonneg lmbd
      exact abs_eq_zero.1 (le_antisymm (not_lt.1 hl) this)
    simp only [if_neg hl, this, zero_mul, add_zero]
    split_ifs at hkj ⊢ with hc
    · rw [hk, hj, jpH_add_int, jpH_add_int, hkj]; ring
    · rw [hk, hj, jpH_add_int, jpH_add_int, hkj]; push_cast; ring

theorem jpSeriesCdf_eq (c : ℕ → ℝ) (N : ℕ) {x mu : ℝ} (h0 : 0 ≤ x) (h1 : x < 2 * π) :
    jpSeriesCdf c N x mu = clip (∫ t in (0 : ℝ)..x, jpFN c N (t - mu)) 0 1 := by
  have := jssSeriesCdf_eq c N (xi := mu) 0 h0 h1
  simp only [zero_mul, add_zero, mul_one] at this
  rw [← this]
  unfold jpSeriesCdf jssSeriesCdf
  simp only
  split_ifs <;> simp

end Verif
