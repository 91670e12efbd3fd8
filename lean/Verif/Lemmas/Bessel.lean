import Verif.Model.Bessel
import Mathlib.Analysis.Fourier.AddCircle
import Mathlib.Analysis.SpecificLimits.Normed
import Mathlib.MeasureTheory.Integral.DominatedConvergence

/-! # Facts about modified Bessel functions of integer order -/

set_option autoImplicit false

namespace Verif

open Real MeasureTheory

theorem bessel_cont (n : ℕ) (k : ℝ) : Continuous fun t : ℝ => exp (k * cos t) * cos (n * t) := by
  fun_prop

theorem besselI_pi (n : ℕ) (k : ℝ) :
    ∫ t in (0 : ℝ)..π, exp (k * cos t) * cos (n * t) = π * besselI n k := by
  unfold besselI
  rw [← mul_assoc, mul_one_div_cancel pi_ne_zero, one_mul]

theorem besselI_zero_pos (k : ℝ) : 0 < besselI 0 k := by
  unfold besselI
  apply mul_pos (by positivity)
  apply intervalIntegral.intervalIntegral_pos_of_pos ((bessel_cont 0 k).intervalIntegrable _ _) _ pi_pos
  intro t
  simp [exp_pos]

theorem besselI_one_lt (k : ℝ) : besselI 1 k < besselI 0 k := by
  have h : 0 < ∫ t in (0 : ℝ)..π, (exp (k * cos t) * cos ((0 : ℕ) * t)
      - exp (k * cos t) * cos ((1 : ℕ) * t)) := by
    apply intervalIntegral.intervalIntegral_pos_of_pos_on _ _ pi_pos
    · exact ((bessel_cont 0 k).sub (bessel_cont 1 k)).intervalIntegrable _ _
    · intro t ht
      have hc : cos t < 1 := by
        rw [← cos_zero]
        exact cos_lt_cos_of_nonneg_of_le_pi le_rfl ht.2.le ht.1
      have := exp_pos (k * cos t)
      simp only [Nat.cast_zero, zero_mul, cos_zero, Nat.cast_one, one_mul]
      nlinarith
  rw [intervalIntegral.integral_sub ((bessel_cont 0 k).intervalIntegrable _ _)
    ((bessel_cont 1 k).intervalIntegrable _ _), besselI_pi, besselI_pi] at h
  nlinarith [pi_pos]

/-- `κ (I_n - I_{n+2}) = 2 (n+1) I_{n+1}`. -/
theorem besselI_rec (n : ℕ) (k : ℝ) :
    k * (besselI n k - besselI (n + 2) k) = 2 * (n + 1) * besselI (n + 1) k := by
  have hd : ∀ t : ℝ, HasDerivAt (fun t => exp (k * cos t) * sin (((n + 1 : ℕ) : ℝ) * t))
      (-(k / 2) * (exp (k * cos t) * cos (n * t) - exp (k * cos t) * cos (((n + 2 : ℕ) : ℝ) * t))
        + (n + 1) * (exp (k * cos t) * cos (((n + 1 : ℕ) : ℝ) * t))) t := by
    intro t
    have h1 : HasDerivAt (fun t => exp (k * cos t)) (exp (k * cos t) * (k * -sin t)) t :=
      ((hasDerivAt_cos t).const_mul k).exp
    have h2 : HasDerivAt (fun t => sin (((n + 1 : ℕ) : ℝ) * t))
        (cos (((n + 1 : ℕ) : ℝ) * t) * (((n + 1 : ℕ) : ℝ) * 1)) t :=
      ((hasDerivAt_id t).const_mul _).sin
    refine (h1.mul h2).congr_deriv ?_
    have e1 : cos ((n : ℝ) * t) = cos (((n + 1 : ℕ) : ℝ) * t) * cos t
        + sin (((n + 1 : ℕ) : ℝ) * t) * sin t := by
      rw [← cos_sub]; congr 1; push_cast; ring
    have e2 : cos (((n + 2 : ℕ) : ℝ) * t) = cos (((n + 1 : ℕ) : ℝ) * t) * cos t
        - sin (((n + 1 : ℕ) : ℝ) * t) * sin t := by
      rw [← cos_add]; congr 1; push_cast; ring
    rw [e1, e2]
    push_cast
    ring
  have h := intervalIntegral.integral_eq_sub_of_hasDerivAt (a := 0) (b := π) (fun t _ => hd t)
    (Continuous.intervalIntegrable (by fun_prop) _ _)
  have hi : ∀ m : ℕ, IntervalIntegrable (fun t : ℝ => exp (k * cos t) * cos (m * t)) volume 0 π :=
    fun m => (bessel_cont m k).intervalIntegrable _ _
  rw [intervalIntegral.integral_add (((hi n).sub (hi (n + 2))).const_mul _) ((hi (n + 1)).const_mul _),
    intervalIntegral.integral_const_mul, intervalIntegral.integral_const_mul,
    intervalIntegral.integral_sub (hi n) (hi (n + 2)), besselI_pi, besselI_pi, besselI_pi,
    sin_nat_mul_pi] at h
  simp only [mul_zero, sin_zero, sub_zero] at h
  have hpi := pi_pos
  have h' : π * (-(k / 2) * (besselI n k - besselI (n + 2) k) + (n + 1) * besselI (n + 1) k) = 0 := by
    linarith
  have := (mul_eq_zero.mp h').resolve_left hpi.ne'
  linarith

/-- `∫_0^π cos^k t cos nt dt`. -/
noncomputable def cosMom (k n : ℕ) : ℝ := ∫ t in (0 : ℝ)..π, cos t ^ k * cos (n * t)

theorem cosMom_zero (n : ℕ) : cosMom 0 n = if n = 0 then π else 0 := by
  unfold cosMom
  simp only [pow_zero, one_mul]
  split_ifs with h
  · subst h; simp
  · have hn : (n : ℝ) ≠ 0 := Nat.cast_ne_zero.mpr h
    rw [intervalIntegral.integral_comp_mul_left (fun t => cos t) hn, integral_cos]
    simp [sin_nat_mul_pi]

theorem cosMom_succ_zero (k : ℕ) : cosMom (k + 1) 0 = cosMom k 1 := by
  unfold cosMom
  congr 1; ext t; simp [pow_succ]

theorem cosMom_succ_succ (k n : ℕ) :
    cosMom (k + 1) (n + 1) = 1 / 2 * cosMom k n + 1 / 2 * cosMom k (n + 2) := by
  unfold cosMom
  rw [← intervalIntegral.integral_const_mul, ← intervalIntegral.integral_const_mul,
    ← intervalIntegral.integral_add (Continuous.intervalIntegrable (by fun_prop) _ _)
      (Continuous.intervalIntegrable (by fun_prop) _ _)]
  congr 1; ext t
  have e1 : cos ((n : ℝ) * t) = cos (((n + 1 : ℕ) : ℝ) * t) * cos t
      + sin (((n + 1 : ℕ) : ℝ) * t) * sin t := by
    rw [← cos_sub]; congr 1; push_cast; ring
  have e2 : cos (((n + 2 : ℕ) : ℝ) * t) = cos (((n + 1 : ℕ) : ℝ) * t) * cos t
      - sin (((n + 1 : ℕ) : ℝ) * t) * sin t := by
    rw [← cos_add]; congr 1; push_cast; ring
  rw [e1, e2, pow_succ]
  ring

theorem cosMom_nonneg (k n : ℕ) : 0 ≤ cosMom k n := by
  induction k generalizing n with
  | zero => rw [cosMom_zero]; split_ifs <;> positivity
  | succ k ih =>
    cases n with
    | zero => rw [cosMom_succ_zero]; exact ih 1
    | succ n => rw [cosMom_succ_succ]; linarith [ih n, ih (n + 2)]

theorem cosMom_diag (n : ℕ) : 0 < cosMom n n := by
  induction n with
  | zero => rw [cosMom_zero]; simp [pi_pos]
  | succ n ih => rw [cosMom_succ_succ]; linarith [cosMom_nonneg n (n + 2)]

theorem besselI_hasSum (n : ℕ) (k : ℝ) :
    HasSum (fun j : ℕ => k ^ j / j.factorial * cosMom j n) (π * besselI n k) := by
  rw [← besselI_pi]
  have h := intervalIntegral.hasSum_integral_of_dominated_convergence (μ := volume) (a := 0) (b := π)
    (F := fun (j : ℕ) (t : ℝ) => k ^ j / j.factorial * (cos t ^ j * cos (n * t)))
    (f := fun t => exp (k * cos t) * cos (n * t))
    (fun j _ => |k| ^ j / j.factorial)
    (fun j => (Continuous.aestronglyMeasurable (by fun_prop)))
    (fun j => Filter.Eventually.of_forall fun t _ => by
      rw [norm_mul, norm_div, norm_pow, norm_mul, norm_pow, Real.norm_eq_abs, Real.norm_eq_abs,
        Real.norm_eq_abs, Real.norm_eq_abs, abs_of_pos (show (0 : ℝ) < j.factorial by positivity)]
      have h1 : |cos t| ^ j ≤ 1 := pow_le_one₀ (abs_nonneg _) (abs_cos_le_one t)
      have h2 := abs_cos_le_one (n * t)
      have h3 : |cos t| ^ j * |cos (n * t)| ≤ 1 := mul_le_one₀ h1 (abs_nonneg _) h2
      exact mul_le_of_le_one_right (by positivity) h3)
    (Filter.Eventually.of_forall fun t _ => Real.summable_pow_div_factorial |k|)
    (by simp)
    (Filter.Eventually.of_forall fun t _ => by
      have h1 : HasSum (fun j : ℕ => (k * cos t) ^ j / j.factorial) (exp (k * cos t)) := by
        rw [Real.exp_eq_exp_ℝ]; exact NormedSpace.expSeries_div_hasSum_exp _
      have h2 := h1.mul_right (cos (n * t))
      have e : (fun j : ℕ => k ^ j / j.factorial * (cos t ^ j * cos (n * t)))
          = fun j : ℕ => (k * cos t) ^ j / j.factorial * cos (n * t) := by
        funext j; rw [mul_pow]; ring
      rw [e]; exact h2)
  have e : (fun j : ℕ => k ^ j / j.factorial * cosMom j n)
      = fun j : ℕ => ∫ t in (0 : ℝ)..π, k ^ j / j.factorial * (cos t ^ j * cos (n * t)) := by
    funext j
    unfold cosMom
    rw [intervalIntegral.integral_const_mul]
  rw [e]; exact h

theorem besselI_pos (n : ℕ) {k : ℝ} (hk : 0 < k) : 0 < besselI n k := by
  have h := besselI_hasSum n k
  have hnn : ∀ j : ℕ, 0 ≤ k ^ j / j.factorial * cosMom j n := fun j =>
    mul_nonneg (by positivity) (cosMom_nonneg j n)
  have hpos : 0 < k ^ n / n.factorial * cosMom n n := mul_pos (by positivity) (cosMom_diag n)
  have := le_hasSum h n (fun j _ => hnn j)
  have h2 : 0 < π * besselI n k := lt_of_lt_of_le hpos this
  exact (mul_pos_iff_of_pos_left pi_pos).mp h2

/-! ## Ratios -/

theorem bessel_ratio_rec (n : ℕ) {k : ℝ} (hk : 0 < k) :
    besselI n k / besselI (n + 1) k
      = besselI (n + 2) k / besselI (n + 1) k + 2 * (n + 1) / k := by
  have h := besselI_rec n k
  have hp := besselI_pos (n + 1) hk
  field_simp
  linarith

/-- `I_{n+1}/I_n ≤ κ/(2n+2)`. -/
theorem bessel_ratio_le (n : ℕ) {k : ℝ} (hk : 0 < k) :
    besselI (n + 1) k / besselI n k ≤ k / (2 * (n + 1)) := by
  have h := besselI_rec n k
  have h0 := besselI_pos n hk
  have h2 := besselI_pos (n + 2) hk
  rw [div_le_div_iff₀ h0 (by positivity)]
  nlinarith

theorem bessel_drop (n : ℕ) {k : ℝ} (hk : 0 < k) : besselI (n + 2) k < besselI n k := by
  have h := besselI_rec n k
  have h1 := besselI_pos (n + 1) hk
  have : 0 < k * (besselI n k - besselI (n + 2) k) := by rw [h]; positivity
  have := (mul_pos_iff_of_pos_left hk).mp this
  linarith

/-- The ratio `I_{n+1}/I_n` decreases in `n`, by at most `2/κ` at each step. -/
theorem bessel_ratio_step (n : ℕ) {k : ℝ} (hk : 0 < k) :
    besselI (n + 2) k / besselI (n + 1) k ≤ besselI (n + 1) k / besselI n k ∧
    besselI (n + 1) k / besselI n k - besselI (n + 2) k / besselI (n + 1) k ≤ 2 / k := by
  set r : ℕ → ℝ := fun j => besselI (j + 1) k / besselI j k with hr
  have hpos : ∀ j, 0 < r j := fun j => div_pos (besselI_pos _ hk) (besselI_pos _ hk)
  have hrec : ∀ j : ℕ, 1 / r j = r (j + 1) + 2 * (j + 1) / k := by
    intro j
    have := bessel_ratio_rec j hk
    rw [hr]
    simp only [one_div_div]
    exact this
  have hle : ∀ j : ℕ, r j ≤ k / (2 * (j + 1)) := fun j => bessel_ratio_le j hk
  have hprod : ∀ j, r j * r (j + 1) < 1 := by
    intro j
    have h0 := besselI_pos j hk
    have h1 := besselI_pos (j + 1) hk
    have : r j * r (j + 1) = besselI (j + 2) k / besselI j k := by
      rw [hr]; simp only; field_simp
    rw [this, div_lt_one h0]
    exact bessel_drop j hk
  have hbig : ∀ j : ℕ, k ^ 2 ≤ 4 * (j + 1) → r (j + 1) ≤ r j ∧ r j - r (j + 1) ≤ 2 / k := by
    intro j hj
    have hj' : k ^ 2 ≤ 4 * ((j : ℝ) + 1 + 1) := by linarith
    have a := hle (j + 1)
    push_cast at a
    have hb : k / (2 * ((j : ℝ) + 1 + 1)) ≤ 2 / k := by
      rw [div_le_div_iff₀ (by positivity) hk]; nlinarith
    constructor
    · have h1 : 1 / r j ≤ 1 / r (j + 1) := by
        rw [hrec j, hrec (j + 1)]
        have hp := (hpos (j + 1 + 1)).le
        have e : 2 * (((j + 1 : ℕ) : ℝ) + 1) / k = 2 * ((j : ℝ) + 1) / k + 2 / k := by
          push_cast; field_simp
        rw [e]
        linarith
      exact (one_div_le_one_div (hpos j) (hpos (j + 1))).mp h1
    · have c := hle j
      have hb' : k / (2 * ((j : ℝ) + 1)) ≤ 2 / k := by
        rw [div_le_div_iff₀ (by positivity) hk]; nlinarith
      linarith [hpos (j + 1)]
  have hback : ∀ j, (r (j + 2) ≤ r (j + 1) ∧ r (j + 1) - r (j + 2) ≤ 2 / k) →
      (r (j + 1) ≤ r j ∧ r j - r (j + 1) ≤ 2 / k) := by
    rintro j ⟨h1, h2⟩
    have e : r j - r (j + 1) = r j * r (j + 1) * (2 / k - (r (j + 1) - r (j + 2))) := by
      have a := hrec j
      have b := hrec (j + 1)
      have p0 := (hpos j).ne'
      have p1 := (hpos (j + 1)).ne'
      have c : 1 / r (j + 1) - 1 / r j = 2 / k - (r (j + 1) - r (j + 2)) := by
        rw [a, b]; push_cast; field_simp; ring
      rw [← c]; field_simp
    have hpp := mul_pos (hpos j) (hpos (j + 1))
    have hk2 : 0 ≤ 2 / k := by positivity
    constructor
    · have : 0 ≤ r j - r (j + 1) := by rw [e]; exact mul_nonneg hpp.le (by linarith)
      linarith
    · rw [e]
      have := hprod j
      nlinarith
  obtain ⟨N, hN⟩ := exists_nat_ge (k ^ 2)
  have key : ∀ d j, N ≤ j + d → r (j + 1) ≤ r j ∧ r j - r (j + 1) ≤ 2 / k := by
    intro d
    induction d with
    | zero =>
      intro j hj
      apply hbig
      have : (N : ℝ) ≤ j := by exact_mod_cast hj
      nlinarith
    | succ d ih =>
      intro j hj
      exact hback j (ih (j + 1) (by omega))
  exact key N n (by omega)

theorem bessel_lt (n : ℕ) {k : ℝ} (hk : 0 < k) : besselI (n + 1) k < besselI n k := by
  induction n with
  | zero => exact besselI_one_lt k
  | succ n ih =>
    have h := (bessel_ratio_step n hk).1
    have h0 := besselI_pos n hk
    have h1 := besselI_pos (n + 1) hk
    have : besselI (n + 1) k / besselI n k < 1 := (div_lt_one h0).mpr ih
    exact (div_lt_one h1).mp (lt_of_le_of_lt h this)

theorem bessel_summable {k : ℝ} (hk : 0 < k) : Summable fun n : ℕ => besselI n k := by
  obtain ⟨N, hN⟩ := exists_nat_ge k
  apply summable_of_ratio_norm_eventually_le (r := 1 / 2) (by norm_num)
  filter_upwards [Filter.eventually_ge_atTop N] with n hn
  have h0 := besselI_pos n hk
  have h1 := besselI_pos (n + 1) hk
  rw [norm_of_nonneg h0.le, norm_of_nonneg h1.le, ← div_le_iff₀ h0]
  refine (bessel_ratio_le n hk).trans ?_
  rw [div_le_div_iff₀ (by positivity) (by norm_num)]
  have : (N : ℝ) ≤ n := by exact_mod_cast hn
  linarith

end Verif
