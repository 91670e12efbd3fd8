import Verif.Model.DistFlat
import Verif.Lemmas.TrapAnalytic
import Verif.Lemmas.TableError
import Mathlib.Analysis.Complex.ExponentialBounds
import Mathlib.Analysis.Real.Pi.Bounds
import Mathlib.Analysis.SpecialFunctions.Trigonometric.Bounds
import Mathlib.Analysis.SpecialFunctions.Trigonometric.DerivHyp
import Mathlib.Analysis.SpecialFunctions.Trigonometric.Series

/-! # Flat-topped von Mises: normalising constant and table -/

set_option autoImplicit false

namespace Verif

open Real MeasureTheory intervalIntegral

/-! ## Grid size -/

theorem tabSize_spec (a : ℝ) : 512 ≤ tabSize a ∧ (64 + 12 * a ≤ 8192 → 64 + 12 * a ≤ tabSize a) ∧ tabSize a ≤ 8193 := by
  unfold tabSize
  simp only
  obtain ⟨t, ht⟩ : ∃ t, t = clip (64 + 12 * a) 512 8192 := ⟨_, rfl⟩
  have h1 : (512 : ℝ) ≤ t := by rw [ht]; unfold clip; exact le_min (le_max_right _ _) (by norm_num)
  have h2 : t ≤ ((2 ^ ⌈logb 2 t⌉₊ : ℕ) : ℝ) := by
    push_cast
    rw [← rpow_natCast]
    calc t = (2 : ℝ) ^ logb 2 t := (rpow_logb (by norm_num) (by norm_num) (by linarith)).symm
      _ ≤ _ := rpow_le_rpow_of_exponent_le (by norm_num) (Nat.le_ceil _)
  rw [← ht]
  obtain ⟨P, hP⟩ : ∃ P, P = 2 ^ ⌈logb 2 t⌉₊ := ⟨_, rfl⟩
  rw [← hP] at h2 ⊢
  have h3 : 512 ≤ min (max P 512) 8192 := le_min (le_max_right _ _) (by norm_num)
  have h5 : min (max P 512) 8192 ≤ 8192 := min_le_right _ _
  have h4 : 64 + 12 * a ≤ 8192 → 64 + 12 * a ≤ ((min (max P 512) 8192 : ℕ) : ℝ) := fun h => by
    push_cast
    refine le_min (le_trans ?_ (h2.trans (le_max_left _ _))) h
    rw [ht]; unfold clip
    exact le_min (le_max_left _ _) h
  generalize min (max P 512) 8192 = S at *
  split_ifs
  · refine ⟨by omega, fun h => ?_, by omega⟩
    push_cast
    linarith [h4 h]
  · exact ⟨h3, h4, by omega⟩

/-! ## The normalising constant -/

/-- The exact normalising integral. -/
noncomputable def flatZ (kappa nu : ℝ) : ℝ := ∫ t in (0 : ℝ)..(2 * π), flatKernel kappa nu t

/-- Its trapezoid approximation with `N` steps. -/
noncomputable def flatZN (kappa nu : ℝ) (N : ℕ) : ℝ :=
  2 * π / N * ∑ j ∈ Finset.range N, flatKernel kappa nu (-π + j * (2 * π / N))

/-- The sharpness that governs the grid. -/
noncomputable def flatA (kappa nu : ℝ) : ℝ := (1 + |nu|) * √(kappa + 1)

theorem flatA_ge_one {kappa : ℝ} (hk : 0 ≤ kappa) (nu : ℝ) : 1 ≤ flatA kappa nu := by
  unfold flatA
  have h1 : 1 ≤ √(kappa + 1) := by rw [one_le_sqrt]; linarith
  have h2 := abs_nonneg nu
  nlinarith

theorem flatA_sq {kappa : ℝ} (hk : 0 ≤ kappa) (nu : ℝ) : flatA kappa nu ^ 2 = (1 + |nu|) ^ 2 * (kappa + 1) := by
  unfold flatA
  rw [mul_pow, sq_sqrt (by linarith)]

theorem flatA_le {kappa nu : ℝ} (hk0 : 0 ≤ kappa) (hk : kappa ≤ 1000) (hn : |nu| ≤ 1) : flatA kappa nu ≤ 64 := by
  have h := flatA_sq hk0 nu
  have h1 := flatA_ge_one hk0 nu
  have h2 : (1 + |nu|) ^ 2 ≤ 4 := by nlinarith [abs_nonneg nu]
  nlinarith [sq_nonneg (1 + |nu|)]

theorem flatKernel_continuous (kappa nu : ℝ) : Continuous (flatKernel kappa nu) := (flatKernel_contDiff kappa nu).continuous

theorem flatZ_symm (kappa nu : ℝ) : flatZ kappa nu = ∫ t in (-π)..π, flatKernel kappa nu t := by
  have := (flatKernel_periodic kappa nu).intervalIntegral_add_eq 0 (-π)
  rw [zero_add, show -π + 2 * π = π by ring] at this
  exact this

theorem flatKernel_le {kappa : ℝ} (hk : 0 ≤ kappa) (nu t : ℝ) : flatKernel kappa nu t ≤ exp kappa := by
  unfold flatKernel
  exact exp_le_exp.2 (mul_le_of_le_one_right hk (cos_le_one _))

theorem flatKernel_ge {kappa : ℝ} (hk : 0 ≤ kappa) (nu t : ℝ) : exp (-kappa) ≤ flatKernel kappa nu t := by
  unfold flatKernel
  refine exp_le_exp.2 ?_
  have := neg_one_le_cos (t + nu * sin t)
  nlinarith

/-- The kernel is at least `exp(κ - 1/2)` near its mode. -/
theorem flatKernel_near {kappa : ℝ} (hk : 0 ≤ kappa) (nu : ℝ) {t : ℝ} (ht : |t| ≤ 1 / flatA kappa nu) :
    exp (kappa - 1 / 2) ≤ flatKernel kappa nu t := by
  unfold flatKernel
  refine exp_le_exp.2 ?_
  have ha := flatA_ge_one hk nu
  obtain ⟨y, hy⟩ : ∃ y, y = t + nu * sin t := ⟨_, rfl⟩
  have h1 : |y| ≤ (1 + |nu|) * |t| := by
    rw [hy]
    refine (abs_add_le _ _).trans ?_
    rw [abs_mul]
    have := mul_le_mul_of_nonneg_left (abs_sin_le_abs (x := t)) (abs_nonneg nu)
    linarith
  have h2 : y ^ 2 * (kappa + 1) ≤ 1 := by
    have h3 : |y| ≤ (1 + |nu|) * (1 / flatA kappa nu) := h1.trans (mul_le_mul_of_nonneg_left ht (by positivity))
    have h4 : y ^ 2 ≤ ((1 + |nu|) * (1 / flatA kappa nu)) ^ 2 := by rw [← sq_abs]; exact pow_le_pow_left₀ (abs_nonneg _) h3 2
    calc y ^ 2 * (kappa + 1) ≤ ((1 + |nu|) * (1 / flatA kappa nu)) ^ 2 * (kappa + 1) := mul_le_mul_of_nonneg_right h4 (by linarith)
      _ = ((1 + |nu|) ^ 2 * (kappa + 1)) / flatA kappa nu ^ 2 := by ring
      _ = 1 := by rw [← flatA_sq hk]; exact div_self (by positivity)
  rw [← hy]
  have h5 := one_sub_sq_div_two_le_cos (x := y)
  nlinarith [sq_nonneg y]

theorem flatZ_ge {kappa : ℝ} (hk : 0 ≤ kappa) (nu : ℝ) : 2 * exp (kappa - 1 / 2) / flatA kappa nu ≤ flatZ kappa nu := by
  have ha := flatA_ge_one hk nu
  have hpi := pi_gt_three
  obtain ⟨b, hb⟩ : ∃ b, b = 1 / flatA kappa nu := ⟨_, rfl⟩
  have hb0 : 0 < b := by rw [hb]; positivity
  have hb1 : b ≤ 1 := by rw [hb]; exact (div_le_one (by positivity)).2 ha
  have hc := flatKernel_continuous kappa nu
  rw [flatZ_symm]
  calc 2 * exp (kappa - 1 / 2) / flatA kappa nu = ∫ _ in (-b)..b, exp (kappa - 1 / 2) := by
        rw [intervalIntegral.integral_const, smul_eq_mul, hb]; ring
    _ ≤ ∫ t in (-b)..b, flatKernel kappa nu t := integral_mono_on (by linarith) (by simp) (hc.intervalIntegrable _ _) fun t ht =>
        flatKernel_near hk nu (by rw [← hb, abs_le]; exact ⟨ht.1, ht.2⟩)
    _ ≤ _ := integral_mono_interval (by linarith) (by linarith) (by linarith)
        (Filter.Eventually.of_forall fun t => (flatKernel_pos kappa nu t).le) (hc.intervalIntegrable _ _)

theorem flatZ_pos {kappa : ℝ} (hk : 0 ≤ kappa) (nu : ℝ) : 0 < flatZ kappa nu :=
  lt_of_lt_of_le (by have := flatA_ge_one hk nu; positivity) (flatZ_ge hk nu)

theorem flatZN_pos {N : ℕ} (hN : 0 < N) (kappa nu : ℝ) : 0 < flatZN kappa nu N := by
  unfold flatZN
  exact mul_pos (by positivity) (Finset.sum_pos (fun j _ => flatKernel_pos _ _ _) ⟨0, by simpa using hN⟩)

private lemma sinh_le' {s : ℝ} (h0 : 0 ≤ s) (h1 : s ≤ 1 / 3) : sinh s ≤ 7 / 6 * s := by
  have a := abs_exp_sub_one_sub_id_le (x := s) (by rw [abs_le]; constructor <;> linarith)
  have b := one_sub_le_exp_neg s
  rw [sinh_eq]
  have := (abs_le.1 a).2
  nlinarith

private lemma cosh_le' {u : ℝ} (h0 : 0 ≤ u) (h1 : u ≤ 1) : cosh u - 1 ≤ 3 / 4 * u ^ 2 := by
  have a := cosh_le_exp_half_sq u
  have b := abs_exp_sub_one_sub_id_le (x := u ^ 2 / 2) (by rw [abs_le]; constructor <;> nlinarith)
  have := (abs_le.1 b).2
  have h2 : u ^ 2 ≤ 1 := by nlinarith
  nlinarith [sq_nonneg u]

private lemma one_sub_exp {s : ℝ} (h0 : 0 ≤ s) (h1 : s ≤ 1 / 2) : s / 2 ≤ 1 - exp (-s) := by
  have a := abs_exp_sub_one_sub_id_le (x := -s) (by rw [abs_le]; constructor <;> linarith)
  have := (abs_le.1 a).2
  nlinarith

private lemma exp_forty : exp (-40) ≤ 1 / 10 ^ 17 := by
  have h := exp_one_gt_d9
  have h2 : (10 : ℝ) ^ 17 ≤ exp 40 := by
    have : exp 40 = exp 1 ^ 40 := by rw [← exp_nat_mul]; norm_num
    rw [this]
    calc (10 : ℝ) ^ 17 ≤ 2.7 ^ 40 := by norm_num
      _ ≤ exp 1 ^ 40 := pow_le_pow_left₀ (by norm_num) (by linarith) 40
  rw [exp_neg, ← one_div]
  exact one_div_le_one_div_of_le (by norm_num) h2

private lemma exp_half_le : exp (1 / 2) ≤ 9 / 5 := by
  have := exp_one_lt_d9
  have h2 : exp (1 / 2) ^ 2 = exp 1 := by rw [← exp_nat_mul]; norm_num
  have h3 : 0 < exp (1 / 2) := exp_pos _
  generalize exp (1 / 2) = r at h2 h3 ⊢
  rw [← h2] at this
  by_contra hc
  push Not at hc
  have h4 : 9 / 5 * (9 / 5) < r ^ 2 := by rw [sq]; exact mul_lt_mul'' hc hc (by norm_num) (by norm_num)
  norm_num at h4 this
  linarith

private lemma half_le (kappa : ℝ) : exp kappa / 2 ≤ exp (kappa - 1 / 2) := by
  rw [exp_sub]
  exact div_le_div_of_nonneg_left (exp_pos _).le (exp_pos _) (exp_half_le.trans (by norm_num))

private lemma final_num {E a b s X D K : ℝ} (hE : 0 < E) (ha1 : 1 ≤ a) (ha : a ≤ 64) (hb0 : 0 < b) (hb : b ≤ 64) (hs : s = 6 / b)
    (hX0 : 0 ≤ X) (hX : X ≤ E * (1 / 10 ^ 17)) (hD : s / 2 ≤ D) (hK : E / 2 ≤ K) :
    4 * π * X / D ≤ 5 / 10 ^ 13 * (2 * K / a) := by
  have hpi4 := pi_lt_four
  have hs0 : 0 < s := by rw [hs]; positivity
  have h1 : 4 * π * X / D ≤ 4 * π * X / (s / 2) := div_le_div_of_nonneg_left (by positivity) (by positivity) hD
  have h2 : 4 * π * X / (s / 2) = 4 * π * X * b / 3 := by rw [hs]; field_simp; ring
  have h3 : 4 * π * X * b / 3 ≤ 4 * 4 * (E * (1 / 10 ^ 17)) * 64 / 3 := by gcongr
  have h4 : 2 * (E / 2) / 64 ≤ 2 * K / a := div_le_div₀ (by linarith) (by linarith) (by linarith) ha
  rw [h2] at h1
  have h5 : 4 * 4 * (E * (1 / 10 ^ 17)) * 64 / 3 ≤ 5 / 10 ^ 13 * (2 * (E / 2) / 64) := by
    have e1 : 4 * 4 * (E * (1 / 10 ^ 17)) * 64 / 3 = E * (1024 / (3 * 10 ^ 17)) := by ring
    have e2 : 5 / 10 ^ 13 * (2 * (E / 2) / 64) = E * (5 / (64 * 10 ^ 13)) := by ring
    rw [e1, e2]
    exact mul_le_mul_of_nonneg_left (by norm_num) hE.le
  exact h1.trans (h3.trans (h5.trans (mul_le_mul_of_nonneg_left h4 (by norm_num))))

/-- Relative accuracy of the trapezoid sum, for every grid the library can choose. -/
theorem flatZN_accuracy {kappa nu : ℝ} (hk0 : 0 ≤ kappa) (hk : kappa ≤ 1000) (hn : |nu| ≤ 1) {N : ℕ} (hN : 512 ≤ N)
    (hNa : 64 + 12 * flatA kappa nu ≤ N) : |flatZN kappa nu N - flatZ kappa nu| ≤ 5 / 10 ^ 13 * flatZ kappa nu := by
  have ha := flatA_ge_one hk0 nu
  have ha2 := flatA_le hk0 hk hn
  obtain ⟨a, hadef⟩ : ∃ a, a = flatA kappa nu := ⟨_, rfl⟩
  obtain ⟨b, hb⟩ : ∃ b, b = max a 18 := ⟨_, rfl⟩
  rw [← hadef] at ha ha2 hNa
  have hab : a ≤ b := by rw [hb]; exact le_max_left _ _
  have hb18 : 18 ≤ b := by rw [hb]; exact le_max_right _ _
  have hb64 : b ≤ 64 := by rw [hb]; exact max_le ha2 (by norm_num)
  have hNb : 64 + 12 * b ≤ N := by
    rw [hb]
    rcases le_total a 18 with h | h
    · rw [max_eq_right h]
      have : (512 : ℝ) ≤ N := by exact_mod_cast hN
      linarith
    · rw [max_eq_left h]; exact hNa
  obtain ⟨s, hs⟩ : ∃ s, s = 6 / b := ⟨_, rfl⟩
  have hs0 : 0 < s := by rw [hs]; positivity
  have hs1 : s ≤ 1 / 3 := by rw [hs, div_le_iff₀ (by linarith)]; linarith
  have hsb : s * b = 6 := by rw [hs]; field_simp
  have herr := flat_trap_error (N := N) (by omega) hk0 nu hs0
  have hA := abs_nonneg nu
  obtain ⟨u, hu⟩ : ∃ u, u = s + |nu| * sinh s := ⟨_, rfl⟩
  have hsh := sinh_le' hs0.le hs1
  have hsh0 := sinh_nonneg_iff.2 hs0.le
  have hu0 : 0 ≤ u := by rw [hu]; positivity
  have hu1 : u ≤ 7 / 6 * ((1 + |nu|) * s) := by
    rw [hu]
    have := mul_le_mul_of_nonneg_left hsh hA
    nlinarith
  have hu2 : u ≤ 1 := by nlinarith
  have hsq : a ^ 2 = (1 + |nu|) ^ 2 * (kappa + 1) := by rw [hadef]; exact flatA_sq hk0 nu
  have hkc : kappa * cosh u ≤ kappa + 38 := by
    have h1 := cosh_le' hu0 hu2
    have h2 : u ^ 2 ≤ (7 / 6 * ((1 + |nu|) * s)) ^ 2 := pow_le_pow_left₀ hu0 hu1 2
    have h3 : kappa * (cosh u - 1) ≤ kappa * (3 / 4 * (7 / 6 * ((1 + |nu|) * s)) ^ 2) :=
      mul_le_mul_of_nonneg_left (h1.trans (by linarith)) hk0
    have h4 : kappa * (3 / 4 * (7 / 6 * ((1 + |nu|) * s)) ^ 2) ≤ 49 / 48 * (a * s) ^ 2 := by
      rw [mul_pow a s, hsq]
      have : 0 ≤ (1 + |nu|) ^ 2 * s ^ 2 := by positivity
      nlinarith
    have h5 : (a * s) ^ 2 ≤ 36 := by
      have : a * s ≤ 6 := by rw [← hsb]; nlinarith
      nlinarith [mul_nonneg (by linarith : 0 ≤ a) hs0.le]
    linarith
  have hNs : 78 ≤ (N : ℝ) * s := by
    have h1 : (64 + 12 * b) * s ≤ N * s := mul_le_mul_of_nonneg_right hNb hs0.le
    have h2 : 64 * s ≥ 6 := by rw [hs, ge_iff_le, ← mul_div_assoc, le_div_iff₀ (by linarith)]; linarith
    nlinarith
  have hnum : exp (kappa * cosh u - N * s) ≤ exp kappa * exp (-40) := by
    rw [← exp_add]
    exact exp_le_exp.2 (by linarith)
  have hden := one_sub_exp hs0.le (by linarith)
  have hden0 : 0 < 1 - exp (-s) := lt_of_lt_of_le (by linarith) hden
  have hZ := flatZ_ge hk0 nu
  rw [← hadef] at hZ
  have hpi4 := pi_lt_four
  rw [← hu] at herr
  unfold flatZN
  refine herr.trans ?_
  have hhalf := half_le kappa
  have h1 : exp (kappa * cosh u - N * s) ≤ exp kappa * (1 / 10 ^ 17) := hnum.trans (mul_le_mul_of_nonneg_left exp_forty (exp_pos _).le)
  exact (final_num (exp_pos _) ha ha2 (by linarith) hb64 hs (exp_pos _).le h1 hden hhalf).trans
    (mul_le_mul_of_nonneg_left hZ (by norm_num))

private lemma exp_fine : exp (-346) ≤ 1 / 10 ^ 100 := by
  have h := exp_one_gt_d9
  have h2 : (10 : ℝ) ^ 100 ≤ exp 346 := by
    have : exp 346 = (exp 1 ^ 173) ^ 2 := by rw [← pow_mul, ← exp_nat_mul]; norm_num
    rw [this]
    have h3 : (10 : ℝ) ^ 50 ≤ exp 1 ^ 173 := le_trans (by norm_num) (pow_le_pow_left₀ (a := 2.7) (by norm_num) (by linarith) 173)
    calc (10 : ℝ) ^ 100 = (10 ^ 50) ^ 2 := by norm_num
      _ ≤ (exp 1 ^ 173) ^ 2 := pow_le_pow_left₀ (by norm_num) h3 2
  rw [exp_neg, ← one_div]
  exact one_div_le_one_div_of_le (by norm_num) h2

private lemma final_fine {E a b s X D K : ℝ} (hE : 0 < E) (ha1 : 1 ≤ a) (ha : a ≤ 64) (hb0 : 0 < b) (hb : b ≤ 64) (hs : s = 6 / b)
    (hX0 : 0 ≤ X) (hX : X ≤ E * (1 / 10 ^ 100)) (hD : s / 2 ≤ D) (hK : E / 2 ≤ K) :
    4 * π * X / D ≤ 1 / 10 ^ 90 * (2 * K / a) := by
  have hpi4 := pi_lt_four
  have hs0 : 0 < s := by rw [hs]; positivity
  have h1 : 4 * π * X / D ≤ 4 * π * X / (s / 2) := div_le_div_of_nonneg_left (by positivity) (by positivity) hD
  have h2 : 4 * π * X / (s / 2) = 4 * π * X * b / 3 := by rw [hs]; field_simp; ring
  have h3 : 4 * π * X * b / 3 ≤ 4 * 4 * (E * (1 / 10 ^ 100)) * 64 / 3 := by gcongr
  have h4 : 2 * (E / 2) / 64 ≤ 2 * K / a := div_le_div₀ (by linarith) (by linarith) (by linarith) ha
  rw [h2] at h1
  have h5 : 4 * 4 * (E * (1 / 10 ^ 100)) * 64 / 3 ≤ 1 / 10 ^ 90 * (2 * (E / 2) / 64) := by
    have e1 : 4 * 4 * (E * (1 / 10 ^ 100)) * 64 / 3 = E * (1024 / (3 * 10 ^ 100)) := by ring
    have e2 : 1 / 10 ^ 90 * (2 * (E / 2) / 64) = E * (1 / (64 * 10 ^ 90)) := by ring
    rw [e1, e2]
    exact mul_le_mul_of_nonneg_left (by norm_num) hE.le
  exact h1.trans (h3.trans (h5.trans (mul_le_mul_of_nonneg_left h4 (by norm_num))))

/-- On fine grids the trapezoid sum is far more accurate. -/
theorem flatZN_accuracy_fine {kappa nu : ℝ} (hk0 : 0 ≤ kappa) (hk : kappa ≤ 1000) (hn : |nu| ≤ 1) {N : ℕ} (hN : 4096 ≤ N) :
    |flatZN kappa nu N - flatZ kappa nu| ≤ 1 / 10 ^ 90 * flatZ kappa nu := by
  have ha := flatA_ge_one hk0 nu
  have ha2 := flatA_le hk0 hk hn
  obtain ⟨a, hadef⟩ : ∃ a, a = flatA kappa nu := ⟨_, rfl⟩
  obtain ⟨b, hb⟩ : ∃ b, b = max a 18 := ⟨_, rfl⟩
  rw [← hadef] at ha ha2
  have hab : a ≤ b := by rw [hb]; exact le_max_left _ _
  have hb18 : 18 ≤ b := by rw [hb]; exact le_max_right _ _
  have hb64 : b ≤ 64 := by rw [hb]; exact max_le ha2 (by norm_num)
  have hNr : (4096 : ℝ) ≤ N := by exact_mod_cast hN
  obtain ⟨s, hs⟩ : ∃ s, s = 6 / b := ⟨_, rfl⟩
  have hs0 : 0 < s := by rw [hs]; positivity
  have hs1 : s ≤ 1 / 3 := by rw [hs, div_le_iff₀ (by linarith)]; linarith
  have hsb : s * b = 6 := by rw [hs]; field_simp
  have herr := flat_trap_error (N := N) (by omega) hk0 nu hs0
  have hA := abs_nonneg nu
  obtain ⟨u, hu⟩ : ∃ u, u = s + |nu| * sinh s := ⟨_, rfl⟩
  have hsh := sinh_le' hs0.le hs1
  have hsh0 := sinh_nonneg_iff.2 hs0.le
  have hu0 : 0 ≤ u := by rw [hu]; positivity
  have hu1 : u ≤ 7 / 6 * ((1 + |nu|) * s) := by
    rw [hu]
    have := mul_le_mul_of_nonneg_left hsh hA
    nlinarith
  have hu2 : u ≤ 1 := by nlinarith
  have hsq : a ^ 2 = (1 + |nu|) ^ 2 * (kappa + 1) := by rw [hadef]; exact flatA_sq hk0 nu
  have hkc : kappa * cosh u ≤ kappa + 38 := by
    have h1 := cosh_le' hu0 hu2
    have h2 : u ^ 2 ≤ (7 / 6 * ((1 + |nu|) * s)) ^ 2 := pow_le_pow_left₀ hu0 hu1 2
    have h3 : kappa * (cosh u - 1) ≤ kappa * (3 / 4 * (7 / 6 * ((1 + |nu|) * s)) ^ 2) :=
      mul_le_mul_of_nonneg_left (h1.trans (by linarith)) hk0
    have h4 : kappa * (3 / 4 * (7 / 6 * ((1 + |nu|) * s)) ^ 2) ≤ 49 / 48 * (a * s) ^ 2 := by
      rw [mul_pow a s, hsq]
      have : 0 ≤ (1 + |nu|) ^ 2 * s ^ 2 := by positivity
      nlinarith
    have h5 : (a * s) ^ 2 ≤ 36 := by
      have : a * s ≤ 6 := by rw [← hsb]; nlinarith
      nlinarith [mul_nonneg (by linarith : 0 ≤ a) hs0.le]
    linarith
  have hNs : 384 ≤ (N : ℝ) * s := by
    have h2 : 6 / 64 ≤ s := by rw [hs]; exact div_le_div_of_nonneg_left (by norm_num) (by linarith) hb64
    nlinarith
  have hnum : exp (kappa * cosh u - N * s) ≤ exp kappa * exp (-346) := by
    rw [← exp_add]
    exact exp_le_exp.2 (by linarith)
  have hden := one_sub_exp hs0.le (by linarith)
  have hden0 : 0 < 1 - exp (-s) := lt_of_lt_of_le (by linarith) hden
  have hZ := flatZ_ge hk0 nu
  rw [← hadef] at hZ
  have hpi4 := pi_lt_four
  rw [← hu] at herr
  unfold flatZN
  refine herr.trans ?_
  have hhalf := half_le kappa
  have h1 : exp (kappa * cosh u - N * s) ≤ exp kappa * (1 / 10 ^ 100) := hnum.trans (mul_le_mul_of_nonneg_left exp_fine (exp_pos _).le)
  exact (final_fine (exp_pos _) ha ha2 (by linarith) hb64 hs (exp_pos _).le h1 hden hhalf).trans
    (mul_le_mul_of_nonneg_left hZ (by norm_num))

/-! ## The normaliser and the table of the library -/

theorem vmftGrid_spec {kappa nu : ℝ} (hk0 : 0 ≤ kappa) (hk : kappa ≤ 1000) (hn : |nu| ≤ 1) :
    512 ≤ vmftGridSize kappa nu ∧ 64 + 12 * flatA kappa nu ≤ vmftGridSize kappa nu ∧ vmftGridSize kappa nu ≤ 8193 := by
  have h := tabSize_spec (flatA kappa nu)
  have ha := flatA_le hk0 hk hn
  have e : vmftGridSize kappa nu = tabSize (flatA kappa nu) := by
    unfold vmftGridSize flatA; rw [max_eq_left hk0]
  rw [e]
  exact ⟨h.1, h.2.1 (by linarith), h.2.2⟩

theorem vmftKernel_eq (kappa nu phi : ℝ) : exp (vmftLogKernel kappa nu phi) = flatKernel kappa nu phi := rfl

theorem flatKernel_grid_last {N : ℕ} (hN : 0 < N) (kappa nu : ℝ) :
    flatKernel kappa nu (tabGrid N N) = flatKernel kappa nu (tabGrid N 0) := by
  rw [tabGrid_last hN, tabGrid_zero]
  exact (flatKernel_even kappa nu π).symm

/-- The weighted sum over the closed grid is the sum over the half-open one. -/
theorem vmftWeight_sum {N : ℕ} (hN : 0 < N) (k : ℕ → ℝ) (h : k N = k 0) :
    ∑ j ∈ Finset.range (N + 1), vmftWeight N j * k j = ∑ j ∈ Finset.range N, k j := by
  obtain ⟨M, rfl⟩ : ∃ M, N = M + 1 := ⟨N - 1, by omega⟩
  rw [Finset.sum_range_succ, Finset.sum_range_succ', Finset.sum_range_succ' (fun j => k j)]
  have e : ∀ j ∈ Finset.range M, vmftWeight (M + 1) (j + 1) * k (j + 1) = k (j + 1) := fun j hj => by
    have := Finset.mem_range.1 hj
    unfold vmftWeight
    rw [if_neg (by omega), one_mul]
  rw [Finset.sum_congr rfl e, h]
  unfold vmftWeight
  simp
  ring

theorem vmftNorm_eq {N : ℕ} (hN : 0 < N) (kappa nu : ℝ) : exp (vmftLogNorm kappa nu N) = 1 / flatZN kappa nu N := by
  unfold vmftLogNorm
  simp only
  generalize ((Finset.range (N + 1)).sup' ⟨0, by simp⟩ fun j => vmftLogKernel kappa nu (tabGrid N j)) = L
  have e1 : ∑ j ∈ Finset.range (N + 1), vmftWeight N j * exp (vmftLogKernel kappa nu (tabGrid N j) - L)
      = exp (-L) * ∑ j ∈ Finset.range N, flatKernel kappa nu (tabGrid N j) := by
    rw [vmftWeight_sum hN (fun j => exp (vmftLogKernel kappa nu (tabGrid N j) - L))]
    · rw [Finset.mul_sum]
      refine Finset.sum_congr rfl fun j _ => ?_
      rw [← vmftKernel_eq, ← exp_add]
      congr 1; ring
    · show exp _ = exp _
      rw [sub_eq_add_neg, exp_add, sub_eq_add_neg, exp_add, vmftKernel_eq, vmftKernel_eq, flatKernel_grid_last hN]
  have hS : 0 < ∑ j ∈ Finset.range N, flatKernel kappa nu (tabGrid N j) :=
    Finset.sum_pos (fun j _ => flatKernel_pos _ _ _) ⟨0, by simpa using hN⟩
  rw [e1, log_mul (exp_pos _).ne' hS.ne', log_exp, exp_neg, show log (2 * π / N) + L + (-L + log (∑ j ∈ Finset.range N, flatKernel kappa nu (tabGrid N j)))
    = log (2 * π / N) + log (∑ j ∈ Finset.range N, flatKernel kappa nu (tabGrid N j)) by ring, exp_add, exp_log (by positivity), exp_log hS, one_div]
  rfl

theorem flatZN_le {N : ℕ} (hN : 0 < N) {kappa : ℝ} (hk : 0 ≤ kappa) (nu : ℝ) : flatZN kappa nu N ≤ 2 * π * exp kappa := by
  unfold flatZN
  have : ∑ j ∈ Finset.range N, flatKernel kappa nu (-π + j * (2 * π / N)) ≤ N * exp kappa := by
    refine (Finset.sum_le_card_nsmul _ _ (exp kappa) fun j _ => flatKernel_le hk nu _).trans ?_
    simp
  calc _ ≤ 2 * π / N * (N * exp kappa) := mul_le_mul_of_nonneg_left this (by positivity)
    _ = _ := by field_simp

/-- The density of the library, as a function of the relative angle. -/
noncomputable def flatG (kappa nu : ℝ) (N : ℕ) (t : ℝ) : ℝ := flatKernel kappa nu t / flatZN kappa nu N

theorem flatG_pos {N : ℕ} (hN : 0 < N) (kappa nu t : ℝ) : 0 < flatG kappa nu N t :=
  div_pos (flatKernel_pos _ _ _) (flatZN_pos hN _ _)

theorem flatG_eq {N : ℕ} (hN : 0 < N) (kappa nu t : ℝ) : exp (vmftLogKernel kappa nu t + vmftLogNorm kappa nu N) = flatG kappa nu N t := by
  rw [exp_add, vmftNorm_eq hN, vmftKernel_eq]; unfold flatG; ring

/-- The trapezoid sum of the density is 1. -/
theorem flatG_sum {N : ℕ} (hN : 0 < N) (kappa nu : ℝ) : tabTrap N (fun j => flatG kappa nu N (tabGrid N j)) N = 1 := by
  have key : ∀ (f : ℕ → ℝ), f N = f 0 → ∑ j ∈ Finset.range N, 1 / 2 * (f j + f (j + 1)) = ∑ j ∈ Finset.range N, f j := fun f hf => by
    rw [← Finset.mul_sum, Finset.sum_add_distrib]
    have e : ∑ j ∈ Finset.range N, f (j + 1) = ∑ j ∈ Finset.range N, f j := by
      have h1 := Finset.sum_range_succ f N
      have h2 := Finset.sum_range_succ' f N
      linarith
    rw [e]; ring
  unfold tabTrap
  rw [key _ (by show flatG _ _ _ _ = flatG _ _ _ _; unfold flatG; rw [flatKernel_grid_last hN])]
  unfold flatG
  rw [← Finset.sum_div]
  have hz := flatZN_pos hN kappa nu
  rw [div_mul_eq_mul_div, div_eq_one_iff_eq hz.ne']
  unfold flatZN
  rw [mul_comm]
  rfl

/-- The density is at most the sharpness of its peak. -/
theorem flatG_le {kappa nu : ℝ} (hk0 : 0 ≤ kappa) (hk : kappa ≤ 1000) (hn : |nu| ≤ 1) (t : ℝ) :
    flatG kappa nu (vmftGridSize kappa nu) t ≤ flatA kappa nu := by
  obtain ⟨g1, g2, -⟩ := vmftGrid_spec hk0 hk hn
  have hacc := flatZN_accuracy hk0 hk hn g1 g2
  have hZ := flatZ_ge hk0 nu
  have hZ0 := flatZ_pos hk0 nu
  have ha := flatA_ge_one hk0 nu
  have hlow : flatZ kappa nu * (9 / 10) ≤ flatZN kappa nu (vmftGridSize kappa nu) := by
    have := (abs_le.1 hacc).1
    linarith
  unfold flatG
  rw [div_le_iff₀ (flatZN_pos (by omega) _ _)]
  refine (flatKernel_le hk0 nu t).trans ?_
  have hhalf : exp (kappa - 1 / 2) ≥ 5 / 9 * exp kappa := by
    rw [exp_sub, ge_iff_le, le_div_iff₀ (exp_pos _)]
    have h3 := exp_half_le
    have h4 := exp_pos kappa
    calc 5 / 9 * exp kappa * exp (1 / 2) ≤ 5 / 9 * exp kappa * (9 / 5) := mul_le_mul_of_nonneg_left h3 (by positivity)
      _ = exp kappa := by ring
  rw [div_le_iff₀ (by linarith)] at hZ
  have h4 : flatZ kappa nu * (9 / 10) * flatA kappa nu ≤ flatZN kappa nu (vmftGridSize kappa nu) * flatA kappa nu :=
    mul_le_mul_of_nonneg_right hlow (by linarith)
  linarith

private lemma tiny_le : floatTiny ≤ exp (-700) := by
  unfold floatTiny
  rw [exp_neg, one_div]
  refine inv_anti₀ (exp_pos _) ?_
  have h := exp_one_lt_d9
  have : exp 700 = exp 1 ^ 700 := by rw [← exp_nat_mul]; norm_num
  rw [this]
  have h2 : exp 1 ^ 700 = (exp 1 ^ 7) ^ 100 := by rw [← pow_mul]
  rw [h2, show (2 : ℝ) ^ 1022 = (2 ^ 10) ^ 100 * 2 ^ 22 by rw [← pow_mul, ← pow_add]]
  have h3 : exp 1 ^ 7 ≤ 1097 := by
    calc exp 1 ^ 7 ≤ 2.7182818286 ^ 7 := pow_le_pow_left₀ (exp_pos 1).le h.le 7
      _ ≤ 1097 := by norm_num
  have h4 : (exp 1 ^ 7) ^ 100 ≤ 1097 ^ 100 := pow_le_pow_left₀ (by positivity) h3 100
  refine h4.trans ?_
  norm_num

theorem floatTiny_le_exp : floatTiny ≤ exp (-700) := tiny_le

/-- For concentrations up to 300 no floor is active in the table. -/
theorem vmftTable_eq {kappa nu : ℝ} (hk0 : 0 ≤ kappa) (hk : kappa ≤ 300) (hn : |nu| ≤ 1) :
    vmftTable kappa nu (vmftGridSize kappa nu)
      = fun j => flatG kappa nu (vmftGridSize kappa nu) (tabGrid (vmftGridSize kappa nu) j) := by
  obtain ⟨g1, g2, -⟩ := vmftGrid_spec hk0 (by linarith) hn
  have hN : 0 < vmftGridSize kappa nu := by omega
  have hat : ∀ t, max (exp (clip (vmftLogKernel kappa nu t + vmftLogNorm kappa nu (vmftGridSize kappa nu)) (-700) 700)) floatTiny
      = flatG kappa nu (vmftGridSize kappa nu) t := fun t => by
    have hpos := flatG_pos hN kappa nu t
    have hlog : vmftLogKernel kappa nu t + vmftLogNorm kappa nu (vmftGridSize kappa nu) = log (flatG kappa nu (vmftGridSize kappa nu) t) := by
      rw [← flatG_eq hN, log_exp]
    have hup : log (flatG kappa nu (vmftGridSize kappa nu) t) ≤ 700 := by
      have h1 := (flatG_le hk0 (by linarith : kappa ≤ 1000) hn t).trans (flatA_le hk0 (by linarith) hn)
      have h2 := log_le_sub_one_of_pos hpos
      linarith
    have hlow : -700 ≤ log (flatG kappa nu (vmftGridSize kappa nu) t) := by
      rw [le_log_iff_exp_le hpos]
      unfold flatG
      rw [le_div_iff₀ (flatZN_pos hN _ _)]
      calc exp (-700) * flatZN kappa nu (vmftGridSize kappa nu) ≤ exp (-700) * (2 * π * exp kappa) :=
            mul_le_mul_of_nonneg_left (flatZN_le hN hk0 nu) (exp_pos _).le
        _ ≤ exp (-700) * (exp 8 * exp kappa) := by
            have : 2 * π ≤ exp 8 := by linarith [add_one_le_exp (8 : ℝ), pi_lt_four]
            gcongr
        _ = exp (-700 + 8 + kappa) := by rw [exp_add, exp_add]; ring
        _ ≤ exp (-kappa) := exp_le_exp.2 (by linarith)
        _ ≤ _ := flatKernel_ge hk0 nu t
    rw [hlog]
    unfold clip
    rw [max_eq_left hlow, min_eq_left hup, exp_log hpos, max_eq_left]
    have h2 : exp (-700) ≤ flatG kappa nu (vmftGridSize kappa nu) t := by rw [← le_log_iff_exp_le hpos]; exact hlow
    exact tiny_le.trans h2
  funext j
  unfold vmftTable
  simp only [hat]
  split_ifs with c
  · rw [c]; unfold flatG; rw [flatKernel_grid_last hN]
  · rfl

/-- The density in terms of its maximum. -/
theorem flatG_max (kappa nu : ℝ) (N : ℕ) (t : ℝ) :
    flatG kappa nu N t = flatG kappa nu N 0 * exp (-(kappa * (1 - cos (t + nu * sin t)))) := by
  unfold flatG flatKernel
  rw [div_mul_eq_mul_div, ← exp_add]
  congr 2
  simp
  ring

theorem flatG_le_max {kappa : ℝ} (hk0 : 0 ≤ kappa) (nu : ℝ) {N : ℕ} (hN : 0 < N) (t : ℝ) : flatG kappa nu N t ≤ flatG kappa nu N 0 := by
  rw [flatG_max]
  refine mul_le_of_le_one_right (flatG_pos hN _ _ _).le (exp_le_one_iff.2 ?_)
  have := cos_le_one (t + nu * sin t)
  have : 0 ≤ kappa * (1 - cos (t + nu * sin t)) := mul_nonneg hk0 (by linarith)
  linarith

private lemma mul_exp_le (v : ℝ) : v * exp (-v) ≤ 37 / 100 := by
  have h1 := add_one_le_exp (v - 1)
  have h2 : v * exp (-v) ≤ exp (-1) := by
    calc v * exp (-v) ≤ exp (v - 1) * exp (-v) := mul_le_mul_of_nonneg_right (by linarith) (exp_pos _).le
      _ = exp (-1) := by rw [← exp_add]; congr 1; ring
  have h3 : exp (-1) ≤ 37 / 100 := by
    rw [exp_neg, inv_le_comm₀ (exp_pos _) (by norm_num)]
    have := exp_one_gt_d9
    norm_num at this ⊢
    linarith
  linarith

/-- Smoothness of the density. -/
theorem flatG_smooth {kappa : ℝ} (hk0 : 0 ≤ kappa) (nu : ℝ) {N : ℕ} (hN : 0 < N) :
    SmoothBy (flatG kappa nu N) (fun t => flatG kappa nu N t * (-(kappa * sin (t + nu * sin t) * (1 + nu * cos t))))
      (flatG kappa nu N 0 * flatA kappa nu ^ 2) (flatG kappa nu N 0 * (2 * flatA kappa nu ^ 2)) := by
  obtain ⟨M, hM⟩ : ∃ M, M = flatG kappa nu N 0 := ⟨_, rfl⟩
  have hM0 : 0 < M := by rw [hM]; exact flatG_pos hN _ _ _
  rw [← hM]
  have hAsq := flatA_sq hk0 nu
  have hin : ∀ t, HasDerivAt (fun t => t + nu * sin t) (1 + nu * cos t) t := fun t =>
    (hasDerivAt_id' t).add ((hasDerivAt_sin t).const_mul nu)
  have hd : ∀ t, HasDerivAt (flatG kappa nu N) (flatG kappa nu N t * (-(kappa * sin (t + nu * sin t) * (1 + nu * cos t)))) t := fun t => by
    have h1 := (((hin t).cos).const_mul kappa).exp.div_const (flatZN kappa nu N)
    have e : flatG kappa nu N = fun t => exp (kappa * cos (t + nu * sin t)) / flatZN kappa nu N := rfl
    rw [e]
    refine h1.congr_deriv ?_
    ring
  have hA0 := abs_nonneg nu
  have hA : ∀ t, |1 + nu * cos t| ≤ 1 + |nu| := fun t => by
    refine (abs_add_le _ _).trans ?_
    rw [abs_one, abs_mul]
    have := mul_le_of_le_one_right (abs_nonneg nu) (abs_cos_le_one t)
    linarith
  -- the second moment of the slope
  have hS : ∀ t, flatG kappa nu N t * (kappa * sin (t + nu * sin t) ^ 2) ≤ 3 / 4 * M := fun t => by
    rw [flatG_max, ← hM]
    obtain ⟨c, hc⟩ : ∃ c, c = cos (t + nu * sin t) := ⟨_, rfl⟩
    have hsin : sin (t + nu * sin t) ^ 2 = (1 - c) * (1 + c) := by rw [hc, sin_sq]; ring
    rw [hsin, ← hc]
    have hc1 : c ≤ 1 := by rw [hc]; exact cos_le_one _
    have hv := mul_exp_le (kappa * (1 - c))
    have hv0 : 0 ≤ kappa * (1 - c) * exp (-(kappa * (1 - c))) := mul_nonneg (mul_nonneg hk0 (by linarith)) (exp_pos _).le
    calc M * exp (-(kappa * (1 - c))) * (kappa * ((1 - c) * (1 + c)))
        = M * ((kappa * (1 - c) * exp (-(kappa * (1 - c)))) * (1 + c)) := by ring
      _ ≤ M * (37 / 100 * 2) := mul_le_mul_of_nonneg_left (mul_le_mul hv (by linarith) (by rw [hc]; linarith [neg_one_le_cos (t + nu * sin t)]) (by norm_num)) hM0.le
      _ ≤ 3 / 4 * M := by linarith
  have hg0 : ∀ t, 0 < flatG kappa nu N t := fun t => flatG_pos hN _ _ _
  have hgM : ∀ t, flatG kappa nu N t ≤ M := fun t => by rw [hM]; exact flatG_le_max hk0 nu hN t
  have hks : ∀ t, flatG kappa nu N t * (kappa * |sin (t + nu * sin t)|) ≤ M * (kappa + 1) := fun t => by
    have h1 : |sin (t + nu * sin t)| ≤ 1 := abs_sin_le_one _
    calc flatG kappa nu N t * (kappa * |sin (t + nu * sin t)|) ≤ M * (kappa * 1) :=
          mul_le_mul (hgM t) (mul_le_mul_of_nonneg_left h1 hk0) (by positivity) hM0.le
      _ ≤ _ := mul_le_mul_of_nonneg_left (by linarith) hM0.le
  refine ⟨hd, fun t => ?_, fun s t => ?_⟩
  · rw [abs_mul, abs_neg, abs_of_pos (hg0 t), abs_mul, abs_mul, abs_of_nonneg hk0, ← mul_assoc]
    have h1 := mul_le_mul (hks t) (hA t) (abs_nonneg _) (by positivity)
    refine h1.trans ?_
    rw [hAsq, mul_assoc]
    refine mul_le_mul_of_nonneg_left ?_ hM0.le
    nlinarith
  · have hd2 : ∀ t, HasDerivAt (fun t => flatG kappa nu N t * (-(kappa * sin (t + nu * sin t) * (1 + nu * cos t))))
        (flatG kappa nu N t * ((kappa * sin (t + nu * sin t) * (1 + nu * cos t)) ^ 2
          - kappa * cos (t + nu * sin t) * (1 + nu * cos t) ^ 2 + kappa * sin (t + nu * sin t) * (nu * sin t))) t := fun t => by
      have h1 : HasDerivAt (fun t => 1 + nu * cos t) (nu * -sin t) t := ((hasDerivAt_cos t).const_mul nu).const_add 1
      have h2 := ((((hin t).sin).const_mul kappa).mul h1).neg
      refine ((hd t).mul h2).congr_deriv ?_
      simp only [Pi.neg_apply, Pi.mul_apply]
      ring
    have hb2 : ∀ t, ‖flatG kappa nu N t * ((kappa * sin (t + nu * sin t) * (1 + nu * cos t)) ^ 2
          - kappa * cos (t + nu * sin t) * (1 + nu * cos t) ^ 2 + kappa * sin (t + nu * sin t) * (nu * sin t))‖
        ≤ M * (2 * flatA kappa nu ^ 2) := fun t => by
      have hsq : (1 + nu * cos t) ^ 2 ≤ (1 + |nu|) ^ 2 := by rw [← sq_abs]; exact pow_le_pow_left₀ (abs_nonneg _) (hA t) 2
      rw [norm_eq_abs, mul_add, mul_sub]
      have a1 : |flatG kappa nu N t * (kappa * sin (t + nu * sin t) * (1 + nu * cos t)) ^ 2| ≤ 3 / 4 * M * kappa * (1 + |nu|) ^ 2 := by
        rw [abs_of_nonneg (mul_nonneg (hg0 t).le (sq_nonneg _))]
        calc flatG kappa nu N t * (kappa * sin (t + nu * sin t) * (1 + nu * cos t)) ^ 2
            = flatG kappa nu N t * (kappa * sin (t + nu * sin t) ^ 2) * kappa * (1 + nu * cos t) ^ 2 := by ring
          _ ≤ _ := mul_le_mul (mul_le_mul_of_nonneg_right (hS t) hk0) hsq (sq_nonneg _) (by positivity)
      have a2 : |flatG kappa nu N t * (kappa * cos (t + nu * sin t) * (1 + nu * cos t) ^ 2)| ≤ M * (kappa * (1 + |nu|) ^ 2) := by
        rw [abs_mul, abs_of_pos (hg0 t)]
        refine mul_le_mul (hgM t) ?_ (abs_nonneg _) hM0.le
        rw [abs_mul, abs_mul, abs_of_nonneg hk0, abs_pow]
        exact mul_le_mul (mul_le_of_le_one_right hk0 (abs_cos_le_one _)) (pow_le_pow_left₀ (abs_nonneg _) (hA t) 2) (by positivity) hk0
      have a3 : |flatG kappa nu N t * (kappa * sin (t + nu * sin t) * (nu * sin t))| ≤ M * (kappa * (1 / 4 * (1 + |nu|) ^ 2)) := by
        rw [abs_mul, abs_of_pos (hg0 t)]
        refine mul_le_mul (hgM t) ?_ (abs_nonneg _) hM0.le
        rw [abs_mul, abs_mul, abs_of_nonneg hk0, abs_mul]
        have h4 : |nu| ≤ 1 / 4 * (1 + |nu|) ^ 2 := by nlinarith [sq_nonneg (1 - |nu|)]
        exact mul_le_mul (mul_le_of_le_one_right hk0 (abs_sin_le_one _)) ((mul_le_of_le_one_right (abs_nonneg _) (abs_sin_le_one _)).trans h4)
          (by positivity) hk0
      refine (abs_add_le _ _).trans ((add_le_add ((abs_sub _ _).trans (add_le_add a1 a2)) a3).trans ?_)
      rw [hAsq]
      have : 0 ≤ M * (1 + |nu|) ^ 2 := by positivity
      nlinarith
    have := Convex.norm_image_sub_le_of_norm_hasDerivWithin_le (s := Set.univ) (x := t) (y := s)
      (fun x _ => (hd2 x).hasDerivWithinAt) (fun x _ => hb2 x) convex_univ (Set.mem_univ _) (Set.mem_univ _)
    simpa [norm_eq_abs] using this

end Verif
