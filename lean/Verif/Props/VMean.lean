import Mathlib.Probability.Independence.Integration
import Mathlib.MeasureTheory.Integral.Pi
import Mathlib.Analysis.SpecialFunctions.Integrals.Basic
import Verif.Spec.UniformLaw
import Verif.Props.VTest

/-!
# C138: mean and variance of the statistic of the V test
-/

set_option autoImplicit false

namespace Verif.Props

open Verif Verif.Spec Real MeasureTheory Finset

private lemma uniform_int (f : ℝ → ℝ) : ∫ x, f x ∂uniformLaw = (2 * π)⁻¹ * ∫ x in (0 : ℝ)..(2 * π), f x := by
  unfold uniformLaw
  rw [integral_smul_measure, intervalIntegral.integral_of_le (by positivity), ← integral_Ico_eq_integral_Ioc,
    ENNReal.toReal_inv, ENNReal.toReal_ofReal (by positivity), smul_eq_mul]

private lemma dev_mean (a : ℝ) : ∫ x, cos (x - a) ∂uniformLaw = 0 := by
  rw [uniform_int, intervalIntegral.integral_comp_sub_right (fun x => cos x), integral_cos, sin_two_pi_sub, zero_sub,
    sin_neg, sub_self, mul_zero]

private lemma dev_sq (a : ℝ) : ∫ x, cos (x - a) * cos (x - a) ∂uniformLaw = 1 / 2 := by
  simp only [← sq]
  rw [uniform_int, intervalIntegral.integral_comp_sub_right (fun x => cos x ^ 2), integral_cos_sq, cos_two_pi_sub, sin_two_pi_sub, zero_sub,
    sin_neg, cos_neg]
  have := pi_pos
  field_simp
  ring

private lemma bdd_int {n : ℕ} {f : (Fin n → ℝ) → ℝ} (hf : Continuous f) (C : ℝ) (h : ∀ u, |f u| ≤ C) :
    Integrable f (uniformSample n) := by
  have : IsProbabilityMeasure (uniformSample n) := by unfold uniformSample; infer_instance
  exact Integrable.of_bound hf.aestronglyMeasurable C (Filter.Eventually.of_forall h)

private lemma pair_mean {n : ℕ} (f : ℝ → ℝ) (hf : Continuous f) (h0 : ∫ x, f x ∂uniformLaw = 0) {j k : Fin n}
    (h : j ≠ k) : ∫ u, f (u j) * f (u k) ∂uniformSample n = 0 := by
  have hi := ProbabilityTheory.iIndepFun_pi (ι := Fin n) (μ := fun _ => uniformLaw) (X := fun _ => f)
    (fun _ => hf.aemeasurable)
  have := (hi.indepFun h).integral_fun_mul_eq_mul_integral
    (hf.comp (continuous_apply j)).aestronglyMeasurable (hf.comp (continuous_apply k)).aestronglyMeasurable
  unfold uniformSample
  rw [this, integral_comp_eval (μ := fun _ : Fin n => uniformLaw) (i := j) hf.aestronglyMeasurable, h0, zero_mul]

private lemma component_ones {n : ℕ} (u : Fin n → ℝ) (angle : ℝ) :
    component (List.ofFn u) (ones (List.ofFn u)) angle = ∑ j, cos (u j - angle) := by
  have : ∀ l : List ℝ, component l (ones l) angle = (l.map fun a => cos (a - angle)).sum := fun l => by
    unfold component ones
    induction l with
    | nil => simp
    | cons a l ih => simp_all
  rw [this, List.map_ofFn, List.sum_ofFn]
  rfl

/-- C138. The statistic `u` of the V test, referred to the standard normal law, has mean 0 and variance 1 for `n` uniform
directions, whatever the angle of the test: `u` is `U` unless the test returns `nan` (mean resultant length at most
`1e-12`), where `|U| ≤ √(2n) · 1e-12`. -/
theorem C138_v {n : ℕ} (hn : 0 < n) (angle : ℝ) (sf : ℝ → ℝ) :
    ∃ U : (Fin n → ℝ) → ℝ,
      (∀ u, 1 / 10 ^ 12 < ‖moment (List.ofFn u) (ones (List.ofFn u)) 1‖ →
        ∃ res, vTest angle (some (List.ofFn u)) none none none none sf = .ok (some res) ∧ res.u = U u) ∧
      (∀ u, ‖moment (List.ofFn u) (ones (List.ofFn u)) 1‖ ≤ 1 / 10 ^ 12 → |U u| ≤ sqrt (2 * n) / 10 ^ 12) ∧
      ∫ u, U u ∂uniformSample n = 0 ∧ ∫ u, U u ^ 2 ∂uniformSample n = 1 := by
  have hn' : (0 : ℝ) < n := by exact_mod_cast hn
  have hprob : IsProbabilityMeasure (uniformSample n) := by unfold uniformSample; infer_instance
  have hsum : ∀ u : Fin n → ℝ, (ones (List.ofFn u)).sum = n := fun u => by rw [sum_ones, List.length_ofFn]
  refine ⟨fun u => (∑ j, cos (u j - angle)) * sqrt (2 / n), fun u hu => ?_, fun u hu => ?_, ?_, ?_⟩
  · obtain ⟨res, h1, h2, -, -, h3, -⟩ := C32_V_sample angle (List.ofFn u) (ones (List.ofFn u)) none none none sf n hn
      (by simp [ones]) (fun x hx => by simp [ones] at hx; rw [← hx.2]; norm_num) (hsum u) hu (.inl rfl)
    refine ⟨res, ?_, by rw [h3, h2, component_ones]⟩
    rw [← h1]
    simp only [vTest, vTestSample, weightsOf]
    simp [ones]
  · have h1 : |∑ j, cos (u j - angle)| ≤ n * (1 / 10 ^ 12) := by
      have hz : component (List.ofFn u) (ones (List.ofFn u)) angle
          = (Complex.exp ((-angle : ℝ) * Complex.I) * expSum (List.ofFn u) (ones (List.ofFn u)) 1).re := by
        have := zip_cos_sum (List.ofFn u) (ones (List.ofFn u)) 1 angle
        simpa [component] using this
      have hm : ‖expSum (List.ofFn u) (ones (List.ofFn u)) 1‖ = n * ‖moment (List.ofFn u) (ones (List.ofFn u)) 1‖ := by
        unfold moment
        rw [hsum, norm_div, Complex.norm_real, norm_natCast]
        field_simp
      rw [← component_ones, hz]
      refine (Complex.abs_re_le_norm _).trans ?_
      rw [norm_mul, Complex.norm_exp_ofReal_mul_I, one_mul, hm]
      exact mul_le_mul_of_nonneg_left hu hn'.le
    have h2 : sqrt (2 * n) = n * sqrt (2 / n) := by
      rw [show (2 * n : ℝ) = n ^ 2 * (2 / n) by field_simp, sqrt_mul (by positivity), sqrt_sq hn'.le]
    rw [abs_mul, abs_of_nonneg (sqrt_nonneg _), h2]
    calc _ ≤ n * (1 / 10 ^ 12) * sqrt (2 / n) := mul_le_mul_of_nonneg_right h1 (sqrt_nonneg _)
      _ = _ := by ring
  · rw [integral_mul_const, integral_finsetSum _ fun j _ => bdd_int (by fun_prop) 1 fun u => abs_cos_le_one _]
    have : ∀ j : Fin n, ∫ u, cos (u j - angle) ∂uniformSample n = 0 := fun j => by
      have hf : Continuous fun x => cos (x - angle) := by fun_prop
      unfold uniformSample
      rw [integral_comp_eval (μ := fun _ : Fin n => uniformLaw) (i := j) (f := fun x => cos (x - angle)) hf.aestronglyMeasurable, dev_mean]
    simp [this]
  · have hf : Continuous fun x => cos (x - angle) := by fun_prop
    have hc : ∀ j k : Fin n, Integrable (fun u : Fin n → ℝ => cos (u j - angle) * cos (u k - angle)) (uniformSample n) := fun j k =>
      bdd_int (by fun_prop) 1 fun u => by
        rw [abs_mul]; exact mul_le_one₀ (abs_cos_le_one _) (abs_nonneg _) (abs_cos_le_one _)
    have hpair : ∀ j k : Fin n, ∫ u, cos (u j - angle) * cos (u k - angle) ∂uniformSample n = if j = k then 1 / 2 else 0 := fun j k => by
      split_ifs with h
      · subst h
        unfold uniformSample
        rw [integral_comp_eval (μ := fun _ : Fin n => uniformLaw) (i := j) (f := fun x => cos (x - angle) * cos (x - angle))
          (by fun_prop : Continuous fun x => cos (x - angle) * cos (x - angle)).aestronglyMeasurable, dev_sq]
      · exact pair_mean (fun x => cos (x - angle)) hf (dev_mean angle) h
    have e : ∀ u : Fin n → ℝ, ((∑ j, cos (u j - angle)) * sqrt (2 / n)) ^ 2
        = (∑ j, ∑ k, cos (u j - angle) * cos (u k - angle)) * (2 / n) := fun u => by
      rw [mul_pow, sq_sqrt (by positivity), sq, sum_mul_sum]
    simp only [e]
    rw [integral_mul_const, integral_finsetSum _ fun j _ => integrable_finsetSum _ fun k _ => hc j k,
      sum_congr rfl fun j _ => integral_finsetSum _ fun k _ => hc j k]
    simp only [hpair, sum_ite_eq, mem_univ, if_true, sum_const, card_univ, Fintype.card_fin, nsmul_eq_mul]
    field_simp

/-- Non-vacuity: one direction, any angle. -/
example (sf : ℝ → ℝ) : ∃ U : (Fin 1 → ℝ) → ℝ, ∫ u, U u ∂uniformSample 1 = 0 ∧ ∫ u, U u ^ 2 ∂uniformSample 1 = 1 ∧
    ∃ res, vTest 1 (some [2]) none none none none sf = .ok (some res) ∧ res.u = U ![2] := by
  obtain ⟨U, h1, -, h2, h3⟩ := C138_v (n := 1) (by norm_num) 1 sf
  refine ⟨U, h2, h3, ?_⟩
  have : moment (List.ofFn ![(2 : ℝ)]) (ones (List.ofFn ![(2 : ℝ)])) 1 = Complex.exp ((2 : ℝ) * Complex.I) := by
    simp [moment, expSum, ones]
  have h := h1 ![2] (by rw [this, Complex.norm_exp_ofReal_mul_I]; norm_num)
  simpa using h

end Verif.Props
