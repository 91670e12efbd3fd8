import Mathlib.Analysis.Fourier.AddCircle
import Mathlib.Analysis.SpecialFunctions.Integrals.Basic

/-! # Cosine series of even periodic functions -/

set_option autoImplicit false

namespace Verif

open Real MeasureTheory

/-- A continuous, even, `2π`-periodic function with summable cosine coefficients is the sum of its
cosine series. -/
theorem cosSeries_hasSum {F : ℝ → ℝ} (hF : Continuous F) (hper : Function.Periodic F (2 * π))
    (heven : ∀ t, F (-t) = F t) {a : ℕ → ℝ}
    (ha : ∀ n : ℕ, a n = 1 / π * ∫ t in (0 : ℝ)..π, F t * cos (n * t)) (hs : Summable a) (phi : ℝ) :
    HasSum (fun n : ℕ => 2 * a (n + 1) * cos (((n + 1 : ℕ) : ℝ) * phi)) (F phi - a 0) := by
  haveI : Fact (0 < 2 * π) := ⟨two_pi_pos⟩
  have hperC : Function.Periodic (fun t : ℝ => (F t : ℂ)) (2 * π) := fun t => by
    simp only [hper t]
  let f : C(AddCircle (2 * π), ℂ) := ⟨hperC.lift, continuous_coinduced_dom.mpr
    (Complex.continuous_ofReal.comp hF)⟩
  have hf : ∀ t : ℝ, f (t : AddCircle (2 * π)) = (F t : ℂ) := fun t => hperC.lift_coe t
  have hint : ∀ m : ℤ, ∀ c d : ℝ, IntervalIntegrable
      (fun t : ℝ => Complex.exp (-(m * t * Complex.I)) * (F t : ℂ)) volume c d := by
    intro m c d
    apply Continuous.intervalIntegrable
    have := Complex.continuous_ofReal.comp hF
    exact Continuous.mul (by fun_prop) this
  have hcoef : ∀ m : ℤ, fourierCoeff f m = (a m.natAbs : ℂ) := by
    intro m
    rw [fourierCoeff_eq_intervalIntegral f m (-π), show -π + 2 * π = π by ring]
    have e : ∀ t : ℝ, (fourier (-m) (t : AddCircle (2 * π)) : ℂ) • f (t : AddCircle (2 * π))
        = Complex.exp (-(m * t * Complex.I)) * (F t : ℂ) := by
      intro t
      rw [fourier_coe_apply, hf, smul_eq_mul]
      congr 2
      have : (π : ℂ) ≠ 0 := by exact_mod_cast pi_ne_zero
      push_cast
      field_simp
    simp_rw [e]
    rw [← intervalIntegral.integral_add_adjacent_intervals (hint m (-π) 0) (hint m 0 π)]
    have hneg : ∫ t in (-π)..0, Complex.exp (-(m * t * Complex.I)) * (F t : ℂ)
        = ∫ t in (0 : ℝ)..π, Complex.exp (m * t * Complex.I) * (F t : ℂ) := by
      have h1 := intervalIntegral.integral_comp_neg (a := (0 : ℝ)) (b := π)
        (fun t : ℝ => Complex.exp (-(m * t * Complex.I)) * (F t : ℂ))
      rw [neg_zero] at h1
      rw [← h1]
      congr 1; ext t
      rw [heven]
      congr 2
      push_cast; ring
    rw [hneg, ← intervalIntegral.integral_add]
    · have e2 : ∀ t : ℝ, Complex.exp (m * t * Complex.I) * (F t : ℂ)
          + Complex.exp (-(m * t * Complex.I)) * (F t : ℂ)
          = ((2 * (F t * cos ((m.natAbs : ℝ) * t)) : ℝ) : ℂ) := by
        intro t
        have hc : cos ((m.natAbs : ℝ) * t) = cos ((m : ℝ) * t) := by
          have h3 : ((m.natAbs : ℕ) : ℝ) = |(m : ℝ)| := by
            rw [Nat.cast_natAbs, Int.cast_abs]
          rw [h3]
          rcases abs_cases (m : ℝ) with ⟨h, _⟩ | ⟨h, _⟩
          · rw [h]
          · rw [h, neg_mul, cos_neg]
        rw [hc, ← add_mul]
        have h4 : Complex.exp (m * t * Complex.I) + Complex.exp (-(m * t * Complex.I))
            = 2 * Complex.cos ((m : ℂ) * t) := by
          rw [Complex.two_cos, neg_mul]
        rw [h4]
        push_cast
        ring
      simp_rw [e2]
      rw [intervalIntegral.integral_ofReal, intervalIntegral.integral_const_mul, ha,
        Complex.real_smul, ← Complex.ofReal_mul]
      congr 1
      field_simp
    · have := hint (-m) 0 π
      simpa using this
    · exact hint m 0 π
  have hsum : Summable (fourierCoeff f) := by
    have h1 : Summable fun n : ℕ => (a n : ℂ) := by
      have := hs.norm
      exact Summable.of_norm (by simpa using this)
    apply Summable.of_nat_of_neg
    · simp_rw [hcoef]; simpa using h1
    · simp_rw [hcoef]; simpa using h1
  have h := has_pointwise_sum_fourier_series_of_summable hsum (phi : AddCircle (2 * π))
  rw [hf] at h
  have h2 := h.nat_add_neg
  have e3 : ∀ n : ℕ, fourierCoeff f (n : ℤ) • (fourier (n : ℤ) (phi : AddCircle (2 * π)) : ℂ)
      + fourierCoeff f (-(n : ℤ)) • (fourier (-(n : ℤ)) (phi : AddCircle (2 * π)) : ℂ)
      = ((2 * a n * cos ((n : ℝ) * phi) : ℝ) : ℂ) := by
    intro n
    have hpi : (π : ℂ) ≠ 0 := by exact_mod_cast pi_ne_zero
    rw [hcoef, hcoef, fourier_coe_apply, fourier_coe_apply, Int.natAbs_neg, Int.natAbs_natCast,
      smul_eq_mul, smul_eq_mul, ← mul_add]
    have h5 : Complex.exp (2 * π * Complex.I * ((n : ℤ) : ℂ) * phi / ((2 * π : ℝ) : ℂ))
        + Complex.exp (2 * π * Complex.I * ((-(n : ℤ) : ℤ) : ℂ) * phi / ((2 * π : ℝ) : ℂ))
        = 2 * Complex.cos ((n : ℂ) * phi) := by
      rw [Complex.two_cos]
      congr 2 <;> · push_cast; field_simp
    rw [h5]
    push_cast
    ring
  have e4 : fourierCoeff f 0 • (fourier 0 (phi : AddCircle (2 * π)) : ℂ) = (a 0 : ℂ) := by
    rw [hcoef, fourier_zero]; simp
  simp_rw [e3] at h2
  rw [e4, ← Complex.ofReal_add, Complex.hasSum_ofReal] at h2
  have h6 := (hasSum_nat_add_iff' (f := fun n : ℕ => 2 * a n * cos ((n : ℝ) * phi)) 1).mpr h2
  have e5 : F phi + a 0 - ∑ i ∈ Finset.range 1, 2 * a i * cos ((i : ℝ) * phi) = F phi - a 0 := by
    simp; ring
  rw [e5] at h6
  exact h6

end Verif
