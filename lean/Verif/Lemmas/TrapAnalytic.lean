import Verif.Lemmas.FourierGrid
import Verif.Lemmas.CosSeries
import Mathlib.Analysis.Complex.CauchyIntegral
import Mathlib.Analysis.SpecialFunctions.Trigonometric.Deriv

/-! # The trapezoid rule over a full period -/

set_option autoImplicit false

namespace Verif

open Real MeasureTheory intervalIntegral

/-- The integral of an entire periodic function over a period does not depend on the height. -/
theorem integral_shift {F : ℂ → ℂ} (hd : Differentiable ℂ F) (hp : ∀ z, F (z + 2 * π) = F z) (s : ℝ) :
    ∫ x in (0 : ℝ)..(2 * π), F x = ∫ x in (0 : ℝ)..(2 * π), F (x + s * Complex.I) := by
  have h := Complex.integral_boundary_rect_eq_zero_of_differentiableOn F 0 (⟨2 * π, s⟩ : ℂ) hd.differentiableOn
  simp only [Complex.zero_re, Complex.zero_im, Complex.ofReal_zero, zero_mul, add_zero, zero_add] at h
  have e : ∀ y : ℝ, F (((2 * π : ℝ) : ℂ) + y * Complex.I) = F (y * Complex.I) := fun y => by
    rw [← hp (y * Complex.I)]
    congr 1
    push_cast
    ring
  simp only [e] at h
  linear_combination h

/-- Trapezoid rule with `N` equal steps over a period, for a function whose cosine coefficients decay
geometrically. -/
theorem trap_error {N : ℕ} (hN : 0 < N) {g : ℝ → ℝ} (hC : ContDiff ℝ 2 g) (hper : Function.Periodic g (2 * π))
    (heven : ∀ t, g (-t) = g t) {B s : ℝ} (hs : 0 < s)
    (hb : ∀ n : ℕ, |∫ t in (0 : ℝ)..(2 * π), g t * cos ((n : ℝ) * t)| ≤ B * exp (-(n * s))) :
    |2 * π / N * ∑ j ∈ Finset.range N, g (-π + j * (2 * π / N)) - ∫ t in (0 : ℝ)..(2 * π), g t|
      ≤ 2 * B * exp (-(N * s)) / (1 - exp (-s)) := by
  have hN0 : N ≠ 0 := by omega
  have hNR : (N : ℝ) ≠ 0 := by exact_mod_cast hN0
  have hpi := pi_pos
  obtain ⟨a, ha⟩ : ∃ a : ℕ → ℝ, a = fun n : ℕ => ∫ t in (0 : ℝ)..(2 * π), g t * cos ((n : ℝ) * t) := ⟨_, rfl⟩
  have hsum : Summable fun n => |a n| := by rw [ha]; exact cos_coeff_summable hC hper
  have ha1 : Summable fun l => |a (l + 1)| := (summable_nat_add_iff 1).2 hsum
  have s1 : ∀ j : ℕ, Summable fun l => a (l + 1) * cos (((l + 1 : ℕ) : ℝ) * (-π + j * (2 * π / N))) := fun j =>
    Summable.of_norm_bounded ha1 fun l => by
      rw [norm_eq_abs, abs_mul]
      exact mul_le_of_le_one_right (abs_nonneg _) (abs_cos_le_one _)
  have hg : ∀ j : ℕ, g (-π + j * (2 * π / N)) = 1 / (2 * π) * ((∫ t in (0 : ℝ)..(2 * π), g t)
      + 2 * ∑' l, a (l + 1) * cos (((l + 1 : ℕ) : ℝ) * (-π + j * (2 * π / N)))) := fun j => by
    rw [cos_series hC hper heven, ha]
  have e1 : 2 * π / N * ∑ j ∈ Finset.range N, g (-π + j * (2 * π / N)) - ∫ t in (0 : ℝ)..(2 * π), g t
      = 2 * ∑' l, a (l + 1) * gridCos N ((l + 1 : ℕ) : ℤ) := by
    simp only [hg]
    rw [← Finset.mul_sum, Finset.sum_add_distrib, ← Finset.mul_sum, ← Summable.tsum_finsetSum fun j _ => s1 j]
    have : ∑' l, a (l + 1) * gridCos N ((l + 1 : ℕ) : ℤ)
        = 1 / N * ∑' l, ∑ j ∈ Finset.range N, a (l + 1) * cos (((l + 1 : ℕ) : ℝ) * (-π + j * (2 * π / N))) := by
      rw [← tsum_mul_left]
      refine tsum_congr fun l => ?_
      unfold gridCos
      rw [← Finset.mul_sum]
      push_cast
      ring
    rw [this]
    simp only [Finset.sum_const, Finset.card_range, nsmul_eq_mul]
    field_simp
    ring
  rw [e1]
  have s2 : Summable fun l => |a (l + 1) * gridCos N ((l + 1 : ℕ) : ℤ)| :=
    Summable.of_nonneg_of_le (fun _ => abs_nonneg _) (fun l => by
      rw [abs_mul]
      exact mul_le_of_le_one_right (abs_nonneg _) (gridCos_abs_le _ _)) ha1
  have hr : exp (-s) < 1 := by rw [← exp_zero]; exact exp_lt_exp.2 (by linarith)
  have hgeo : Summable fun l : ℕ => B * exp (-(N * s)) * exp (-s) ^ l :=
    (summable_geometric_of_lt_one (exp_pos _).le hr).mul_left _
  have hz : ∀ l, l < N - 1 → a (l + 1) * gridCos N ((l + 1 : ℕ) : ℤ) = 0 := fun l hl => by
    rw [gridCos_zero hN0 (fun h => ?_), mul_zero]
    have := Int.eq_zero_of_abs_lt_dvd h (by rw [abs_lt]; push_cast; constructor <;> omega)
    push_cast at this; omega
  have s3 : Summable fun l => a (l + 1) * gridCos N ((l + 1 : ℕ) : ℤ) := s2.of_abs
  rw [← s3.sum_add_tsum_nat_add (N - 1), Finset.sum_eq_zero fun l hl => hz l (Finset.mem_range.1 hl), zero_add, abs_mul,
    abs_of_pos (by norm_num : (0 : ℝ) < 2)]
  have : |∑' l, a (l + (N - 1) + 1) * gridCos N ((l + (N - 1) + 1 : ℕ) : ℤ)| ≤ ∑' l : ℕ, B * exp (-(N * s)) * exp (-s) ^ l := by
    have := tsum_of_norm_bounded hgeo.hasSum (f := fun l => a (l + (N - 1) + 1) * gridCos N ((l + (N - 1) + 1 : ℕ) : ℤ)) (fun l => by
      rw [norm_eq_abs, abs_mul]
      refine (mul_le_of_le_one_right (abs_nonneg _) (gridCos_abs_le _ _)).trans ?_
      rw [show l + (N - 1) + 1 = l + N by omega]
      have := hb (l + N)
      rw [ha]
      refine this.trans (le_of_eq ?_)
      rw [← exp_nat_mul, mul_assoc, ← exp_add]
      congr 2
      push_cast
      ring)
    simpa [norm_eq_abs] using this
  rw [tsum_mul_left, tsum_geometric_of_lt_one (exp_pos _).le hr] at this
  calc 2 * |∑' l, a (l + (N - 1) + 1) * gridCos N ((l + (N - 1) + 1 : ℕ) : ℤ)|
      ≤ 2 * (B * exp (-(N * s)) * (1 - exp (-s))⁻¹) := by linarith
    _ = _ := by rw [div_eq_mul_inv]; ring

/-- The kernel `exp(κ cos(t + ν sin t))`. -/
noncomputable def flatKernel (kappa nu t : ℝ) : ℝ := exp (kappa * cos (t + nu * sin t))

theorem flatKernel_contDiff (kappa nu : ℝ) : ContDiff ℝ 2 (flatKernel kappa nu) := by
  unfold flatKernel
  fun_prop

theorem flatKernel_periodic (kappa nu : ℝ) : Function.Periodic (flatKernel kappa nu) (2 * π) := fun t => by
  unfold flatKernel
  rw [sin_add_two_pi, show t + 2 * π + nu * sin t = t + nu * sin t + 2 * π by ring, cos_add_two_pi]

theorem flatKernel_even (kappa nu t : ℝ) : flatKernel kappa nu (-t) = flatKernel kappa nu t := by
  unfold flatKernel
  rw [sin_neg, show -t + nu * -sin t = -(t + nu * sin t) by ring, cos_neg]

theorem flatKernel_pos (kappa nu t : ℝ) : 0 < flatKernel kappa nu t := exp_pos _

private noncomputable def flatC (kappa nu : ℝ) (z : ℂ) : ℂ :=
  Complex.exp (kappa * Complex.cos (z + nu * Complex.sin z))

private lemma flatC_norm {kappa : ℝ} (hk : 0 ≤ kappa) (nu t : ℝ) {s : ℝ} (hs : 0 ≤ s) :
    ‖flatC kappa nu (t + s * Complex.I)‖ ≤ exp (kappa * cosh (s + |nu| * sinh s)) := by
  unfold flatC
  rw [Complex.norm_exp]
  refine exp_le_exp.2 ?_
  rw [Complex.re_ofReal_mul]
  refine mul_le_mul_of_nonneg_left ?_ hk
  obtain ⟨w, hw⟩ : ∃ w : ℂ, w = (t : ℂ) + s * Complex.I + nu * Complex.sin (t + s * Complex.I) := ⟨_, rfl⟩
  rw [← hw]
  have him : w.im = s + nu * (cos t * sinh s) := by
    rw [hw, Complex.sin_add_mul_I, ← Complex.ofReal_sin, ← Complex.ofReal_cos, ← Complex.ofReal_cosh, ← Complex.ofReal_sinh]
    simp [Complex.cos_ofReal_re, Complex.sinh_ofReal_re]
  have h1 : |w.im| ≤ s + |nu| * sinh s := by
    rw [him]
    refine (abs_add_le _ _).trans ?_
    rw [abs_of_nonneg hs, abs_mul, abs_mul, abs_of_nonneg (sinh_nonneg_iff.2 hs)]
    have := mul_le_mul_of_nonneg_left (mul_le_of_le_one_left (sinh_nonneg_iff.2 hs) (abs_cos_le_one t)) (abs_nonneg nu)
    linarith
  have h2 : (Complex.cos w).re = cos w.re * cosh w.im := by
    conv_lhs => rw [← Complex.re_add_im w, Complex.cos_add_mul_I, ← Complex.ofReal_sin, ← Complex.ofReal_cos,
      ← Complex.ofReal_cosh, ← Complex.ofReal_sinh]
    simp [Complex.cos_ofReal_re]
  rw [h2]
  calc cos w.re * cosh w.im ≤ 1 * cosh w.im := mul_le_mul_of_nonneg_right (cos_le_one _) (cosh_pos _).le
    _ = cosh w.im := one_mul _
    _ ≤ _ := by
      rw [cosh_le_cosh]
      exact h1.trans (le_abs_self _)

/-- The cosine coefficients of the kernel decay geometrically, at any rate. -/
theorem flat_coeff {kappa : ℝ} (hk : 0 ≤ kappa) (nu : ℝ) {s : ℝ} (hs : 0 ≤ s) (n : ℕ) :
    |∫ t in (0 : ℝ)..(2 * π), flatKernel kappa nu t * cos ((n : ℝ) * t)|
      ≤ 2 * π * exp (kappa * cosh (s + |nu| * sinh s)) * exp (-(n * s)) := by
  have hpi := pi_pos
  obtain ⟨F, hF⟩ : ∃ F : ℂ → ℂ, F = fun z => flatC kappa nu z * Complex.exp (n * z * Complex.I) := ⟨_, rfl⟩
  have hd : Differentiable ℂ F := by
    rw [hF]; unfold flatC
    intro z
    fun_prop
  have hp : ∀ z, F (z + 2 * π) = F z := fun z => by
    rw [hF]; unfold flatC
    simp only
    have e1 : Complex.sin (z + 2 * π) = Complex.sin z := Complex.sin_add_two_pi z
    rw [e1, show z + 2 * π + nu * Complex.sin z = z + nu * Complex.sin z + 2 * π by ring, Complex.cos_add_two_pi]
    congr 1
    rw [show (n : ℂ) * (z + 2 * π) * Complex.I = n * z * Complex.I + n * (2 * π * Complex.I) by ring, Complex.exp_add,
      Complex.exp_nat_mul_two_pi_mul_I, mul_one]
  have hre : ∫ t in (0 : ℝ)..(2 * π), flatKernel kappa nu t * cos ((n : ℝ) * t) = (∫ t in (0 : ℝ)..(2 * π), F t).re := by
    have hc : Continuous fun t : ℝ => F t := hd.continuous.comp Complex.continuous_ofReal
    have := Complex.reCLM.intervalIntegral_comp_comm (hc.intervalIntegrable (μ := volume) 0 (2 * π))
    simp only [Complex.reCLM_apply] at this
    rw [← this]
    refine integral_congr fun t _ => ?_
    rw [hF]
    unfold flatC flatKernel
    have e1 : Complex.exp (kappa * Complex.cos (t + nu * Complex.sin t)) = ((exp (kappa * cos (t + nu * sin t)) : ℝ) : ℂ) := by
      push_cast; rfl
    have e2 : (n : ℂ) * t * Complex.I = ((n * t : ℝ) : ℂ) * Complex.I := by push_cast; ring
    simp only [e1, e2]
    rw [Complex.re_ofReal_mul, Complex.exp_ofReal_mul_I_re]
  rw [hre]
  refine (Complex.abs_re_le_norm _).trans ?_
  rw [integral_shift hd hp s]
  have := norm_integral_le_of_norm_le_const (a := (0 : ℝ)) (b := 2 * π) (f := fun t : ℝ => F (t + s * Complex.I))
    (C := exp (kappa * cosh (s + |nu| * sinh s)) * exp (-(n * s))) (fun t _ => by
      rw [hF]
      simp only
      rw [norm_mul]
      refine mul_le_mul (flatC_norm hk nu t hs) (le_of_eq ?_) (norm_nonneg _) (exp_pos _).le
      rw [Complex.norm_exp]
      congr 1
      simp)
  refine this.trans (le_of_eq ?_)
  rw [sub_zero, abs_of_pos two_pi_pos]
  ring

/-- The trapezoid rule for the kernel. -/
theorem flat_trap_error {N : ℕ} (hN : 0 < N) {kappa : ℝ} (hk : 0 ≤ kappa) (nu : ℝ) {s : ℝ} (hs : 0 < s) :
    |2 * π / N * ∑ j ∈ Finset.range N, flatKernel kappa nu (-π + j * (2 * π / N))
        - ∫ t in (0 : ℝ)..(2 * π), flatKernel kappa nu t|
      ≤ 4 * π * exp (kappa * cosh (s + |nu| * sinh s) - N * s) / (1 - exp (-s)) := by
  refine (trap_error hN (flatKernel_contDiff kappa nu) (flatKernel_periodic kappa nu) (flatKernel_even kappa nu) hs
    (flat_coeff hk nu hs.le)).trans (le_of_eq ?_)
  rw [sub_eq_add_neg (kappa * _), exp_add]
  ring

end Verif
