import Verif.Spec.Regression
import Verif.Model.Regression
import Verif.Lemmas.BesselDeriv
import Mathlib.MeasureTheory.Integral.IntervalIntegral.Periodic

/-! # The Fisher information of von Mises models -/

set_option autoImplicit false

namespace Verif

open Real Verif.Spec

private lemma even_integral {g : ℝ → ℝ} (hc : Continuous g) (hp : Function.Periodic g (2 * π)) (he : ∀ t, g (-t) = g t)
    (m : ℝ) : ∫ t in (0 : ℝ)..(2 * π), g (t - m) = 2 * ∫ t in (0 : ℝ)..π, g t := by
  rw [intervalIntegral.integral_comp_sub_right (fun t => g t) m]
  have h1 := hp.intervalIntegral_add_eq (0 - m) (-π)
  rw [show 0 - m + 2 * π = 2 * π - m by ring, show -π + 2 * π = π by ring] at h1
  rw [h1, ← intervalIntegral.integral_add_adjacent_intervals (hc.intervalIntegrable (-π) 0)
    (hc.intervalIntegrable 0 π)]
  have h2 : ∫ t in (-π : ℝ)..0, g t = ∫ t in (0 : ℝ)..π, g t := by
    have := intervalIntegral.integral_comp_neg (f := g) (a := 0) (b := π)
    simp only [neg_zero] at this
    rw [← this]
    exact intervalIntegral.integral_congr fun t _ => he t
  rw [h2]; ring

private lemma vm_integral (m k : ℝ) (f : ℝ → ℝ) (hf : Continuous f) :
    ∫ t in (0 : ℝ)..(2 * π), f (cos (t - m)) * vonMises m k t
      = (1 / π * ∫ t in (0 : ℝ)..π, exp (k * cos t) * f (cos t)) / besselI 0 k := by
  have h1 := even_integral (g := fun t => exp (k * cos t) * f (cos t)) (by fun_prop)
    (fun t => by simp [cos_add_two_pi]) (fun t => by simp [cos_neg]) m
  have h2 : ∀ t, f (cos (t - m)) * vonMises m k t
      = 1 / (2 * π * besselI 0 k) * (exp (k * cos (t - m)) * f (cos (t - m))) := by
    intro t; unfold vonMises; ring
  simp only [h2]
  rw [intervalIntegral.integral_const_mul, h1]
  have := pi_ne_zero
  have := (besselI_zero_pos k).ne'
  field_simp

/-- The density has mass one. -/
theorem vonMises_mass (m k : ℝ) : ∫ t in (0 : ℝ)..(2 * π), vonMises m k t = 1 := by
  have h := vm_integral m k (fun _ => 1) continuous_const
  simp only [one_mul, mul_one] at h
  rw [h]
  have h2 := besselI_pi 0 k
  simp only [Nat.cast_zero, zero_mul, cos_zero, mul_one] at h2
  rw [h2]
  have := pi_ne_zero
  have := (besselI_zero_pos k).ne'
  field_simp

private lemma int_cos (m k : ℝ) :
    ∫ t in (0 : ℝ)..(2 * π), cos (t - m) * vonMises m k t = besselI 1 k / besselI 0 k := by
  have h := vm_integral m k (fun c => c) continuous_id
  rw [h]
  have h2 := besselI_pi 1 k
  simp only [Nat.cast_one, one_mul] at h2
  rw [h2]
  have := pi_ne_zero
  field_simp

private lemma int_cos_sq (m : ℝ) {k : ℝ} (hk : k ≠ 0) :
    ∫ t in (0 : ℝ)..(2 * π), cos (t - m) ^ 2 * vonMises m k t = 1 - besselI 1 k / besselI 0 k / k := by
  have h := vm_integral m k (fun c => c ^ 2) (continuous_pow 2)
  rw [h, bessel_cos_sq hk]
  have := (besselI_zero_pos k).ne'
  field_simp

theorem vonMises_pos (m k t : ℝ) : 0 < vonMises m k t :=
  div_pos (exp_pos _) (mul_pos two_pi_pos (besselI_zero_pos k))

private lemma vm_cont (m k : ℝ) : Continuous (vonMises m k) := by
  unfold vonMises; fun_prop

/-- `κ² E sin² = κ A1(κ)`. -/
theorem int_sin_sq (m k : ℝ) :
    k ^ 2 * ∫ t in (0 : ℝ)..(2 * π), sin (t - m) ^ 2 * vonMises m k t = k * (besselI 1 k / besselI 0 k) := by
  by_cases hk : k = 0
  · subst hk; simp
  have h1 : ∫ t in (0 : ℝ)..(2 * π), sin (t - m) ^ 2 * vonMises m k t
      = (∫ t in (0 : ℝ)..(2 * π), vonMises m k t) - ∫ t in (0 : ℝ)..(2 * π), cos (t - m) ^ 2 * vonMises m k t := by
    have hc := vm_cont m k
    rw [← intervalIntegral.integral_sub (hc.intervalIntegrable _ _)
      ((by fun_prop : Continuous fun t => cos (t - m) ^ 2 * vonMises m k t).intervalIntegrable _ _)]
    refine intervalIntegral.integral_congr fun t _ => ?_
    change sin (t - m) ^ 2 * vonMises m k t = vonMises m k t - cos (t - m) ^ 2 * vonMises m k t
    rw [sin_sq]; ring
  rw [h1, vonMises_mass, int_cos_sq m hk]
  field_simp
  ring

/-- The variance of the cosine is `1 - A1/κ - A1²`. -/
theorem int_cos_var (m : ℝ) {k : ℝ} (hk : k ≠ 0) :
    ∫ t in (0 : ℝ)..(2 * π), (cos (t - m) - besselI 1 k / besselI 0 k) ^ 2 * vonMises m k t
      = 1 - besselI 1 k / besselI 0 k / k - (besselI 1 k / besselI 0 k) ^ 2 := by
  obtain ⟨A, hA⟩ : ∃ A, A = besselI 1 k / besselI 0 k := ⟨_, rfl⟩
  have hc := vm_cont m k
  have h1 : ∫ t in (0 : ℝ)..(2 * π), (cos (t - m) - A) ^ 2 * vonMises m k t
      = (∫ t in (0 : ℝ)..(2 * π), cos (t - m) ^ 2 * vonMises m k t)
        - 2 * A * (∫ t in (0 : ℝ)..(2 * π), cos (t - m) * vonMises m k t)
        + A ^ 2 * ∫ t in (0 : ℝ)..(2 * π), vonMises m k t := by
    have i1 : Continuous fun t => cos (t - m) ^ 2 * vonMises m k t := by fun_prop
    have i2 : Continuous fun t => 2 * A * (cos (t - m) * vonMises m k t) := by fun_prop
    have i12 : Continuous fun t => cos (t - m) ^ 2 * vonMises m k t - 2 * A * (cos (t - m) * vonMises m k t) := by fun_prop
    have i3 : Continuous fun t => A ^ 2 * vonMises m k t := by fun_prop
    rw [← intervalIntegral.integral_const_mul, ← intervalIntegral.integral_const_mul,
      ← intervalIntegral.integral_sub (i1.intervalIntegrable _ _) (i2.intervalIntegrable _ _),
      ← intervalIntegral.integral_add (i12.intervalIntegrable _ _) (i3.intervalIntegrable _ _)]
    exact intervalIntegral.integral_congr fun t _ => by ring
  rw [← hA, h1, int_cos, int_cos_sq m hk, vonMises_mass, ← hA]
  ring

theorem log_vonMises (m k t : ℝ) : log (vonMises m k t) = k * cos (t - m) - log (besselI 0 k) - log (2 * π) := by
  unfold vonMises
  rw [log_div (exp_pos _).ne' (mul_pos two_pi_pos (besselI_zero_pos k)).ne', log_exp,
    log_mul two_pi_pos.ne' (besselI_zero_pos k).ne']
  ring

variable {ι : Type} [DecidableEq ι] {n : ℕ}

/-- The information about parameters of the mean directions. -/
theorem fisher_location {m : (ι → ℝ) → Fin n → ℝ} {kappa : Fin n → ℝ} {eta : ι → ℝ} {g : Fin n → ι → ℝ}
    (hg : ∀ i a, HasDerivAt (fun s => m (Function.update eta a s) i) (g i a) (eta a)) (a b : ι) :
    fisherInfo (fun e i => vonMises (m e i) (kappa i)) eta a b
      = ∑ i, g i a * (kappa i * (besselI 1 (kappa i) / besselI 0 (kappa i)) * g i b) := by
  unfold fisherInfo
  refine Finset.sum_congr rfl fun i _ => ?_
  have hd : ∀ c t, deriv (fun s => log (vonMises (m (Function.update eta c s) i) (kappa i) t)) (eta c)
      = kappa i * (sin (t - m eta i) * g i c) := by
    intro c t
    have h1 := ((((hg i c).const_sub t).cos.const_mul (kappa i)).sub_const (log (besselI 0 (kappa i)))).sub_const
      (log (2 * π))
    simp only [log_vonMises]
    rw [h1.deriv, Function.update_eq_self]
    ring
  simp only [hd]
  have h2 : ∀ t, kappa i * (sin (t - m eta i) * g i a) * (kappa i * (sin (t - m eta i) * g i b))
      * vonMises (m eta i) (kappa i) t
      = g i a * g i b * kappa i ^ 2 * (sin (t - m eta i) ^ 2 * vonMises (m eta i) (kappa i) t) := by
    intro t; ring
  simp only [h2]
  rw [intervalIntegral.integral_const_mul, mul_assoc _ (kappa i ^ 2), int_sin_sq]
  ring

/-- The information about parameters of the concentrations. -/
theorem fisher_concentration {m : Fin n → ℝ} {kappa : (ι → ℝ) → Fin n → ℝ} {eta : ι → ℝ} {g : Fin n → ι → ℝ}
    (hg : ∀ i a, HasDerivAt (fun s => kappa (Function.update eta a s) i) (g i a) (eta a))
    (hk : ∀ i, kappa eta i ≠ 0) (a b : ι) :
    fisherInfo (fun e i => vonMises (m i) (kappa e i)) eta a b
      = ∑ i, g i a * (a1Prime (fun k => besselI 1 k / besselI 0 k) (kappa eta i) * g i b) := by
  unfold fisherInfo
  refine Finset.sum_congr rfl fun i _ => ?_
  have hd : ∀ c t, deriv (fun s => log (vonMises (m i) (kappa (Function.update eta c s) i) t)) (eta c)
      = g i c * (cos (t - m i) - besselI 1 (kappa eta i) / besselI 0 (kappa eta i)) := by
    intro c t
    have h0 : kappa (Function.update eta c (eta c)) i = kappa eta i := by rw [Function.update_eq_self]
    have h1 := ((hg i c).mul_const (cos (t - m i))).sub
      ((hasDerivAt_log_besselI (kappa (Function.update eta c (eta c)) i)).comp (eta c) (hg i c))
    have h2 := h1.sub_const (log (2 * π))
    simp only [log_vonMises]
    have h3 : HasDerivAt (fun s => kappa (Function.update eta c s) i * cos (t - m i)
        - log (besselI 0 (kappa (Function.update eta c s) i)) - log (2 * π))
        (g i c * (cos (t - m i) - besselI 1 (kappa eta i) / besselI 0 (kappa eta i))) (eta c) :=
      h2.congr_deriv (by rw [h0]; ring)
    exact h3.deriv
  simp only [hd]
  have h2 : ∀ t, g i a * (cos (t - m i) - besselI 1 (kappa eta i) / besselI 0 (kappa eta i))
      * (g i b * (cos (t - m i) - besselI 1 (kappa eta i) / besselI 0 (kappa eta i))) * vonMises (m i) (kappa eta i) t
      = g i a * g i b * ((cos (t - m i) - besselI 1 (kappa eta i) / besselI 0 (kappa eta i)) ^ 2
        * vonMises (m i) (kappa eta i) t) := by
    intro t; ring
  simp only [h2]
  rw [intervalIntegral.integral_const_mul, int_cos_var _ (hk i)]
  unfold a1Prime
  ring

end Verif
