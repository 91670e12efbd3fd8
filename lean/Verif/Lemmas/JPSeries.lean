import Verif.Lemmas.CosSeries

/-! # Accuracy of the truncated Fourier series of the Jones-Pewsey families -/

set_option autoImplicit false

namespace Verif

open Real MeasureTheory Verif.Spec

theorem clip_close {v w : ℝ} {lo hi : ℝ} (h0 : lo ≤ w) (h1 : w ≤ hi) : |clip v lo hi - w| ≤ |v - w| := by
  unfold clip
  rcases le_total v lo with h | h
  · rw [max_eq_right h, min_eq_left (h0.trans h1), abs_of_nonpos (by linarith), abs_of_nonpos (by linarith)]
    linarith
  · rw [max_eq_left h]
    rcases le_total v hi with h' | h'
    · rw [min_eq_left h']
    · rw [min_eq_right h', abs_of_nonneg (by linarith), abs_of_nonneg (by linarith)]
      linarith

theorem osc_integral (n : ℕ) (hn : 2 ≤ n) (lmbd a b : ℝ) :
    |∫ t in a..b, cos (n * t) * (1 + lmbd * sin t)| ≤ (1 + |lmbd|) * (4 / n) := by
  obtain ⟨m, hm⟩ : ∃ m : ℝ, (n : ℝ) = m := ⟨_, rfl⟩
  have hm2 : 2 ≤ m := by rw [← hm]; exact_mod_cast hn
  rw [hm]
  have hd : ∀ t, HasDerivAt (fun t => sin (m * t) / m + lmbd / 2 * (cos ((m - 1) * t) / (m - 1) - cos ((m + 1) * t) / (m + 1)))
      (cos (m * t) * (1 + lmbd * sin t)) t := by
    intro t
    have h1 := ((hasDerivAt_id' t).const_mul m).sin.div_const m
    have h2 := ((hasDerivAt_id' t).const_mul (m - 1)).cos.div_const (m - 1)
    have h3 := ((hasDerivAt_id' t).const_mul (m + 1)).cos.div_const (m + 1)
    refine (h1.fun_add ((h2.fun_sub h3).const_mul (lmbd / 2))).congr_deriv ?_
    have e1 : m - 1 ≠ 0 := by linarith
    have e2 : m + 1 ≠ 0 := by linarith
    have e3 : m ≠ 0 := by linarith
    have f1 : sin ((m - 1) * t) = sin (m * t) * cos t - cos (m * t) * sin t := by rw [sub_mul, sin_sub, one_mul]
    have f2 : sin ((m + 1) * t) = sin (m * t) * cos t + cos (m * t) * sin t := by rw [add_mul, sin_add, one_mul]
    rw [f1, f2]
    field_simp
    ring
  rw [intervalIntegral.integral_eq_sub_of_hasDerivAt (fun t _ => hd t)
    ((by fun_prop : Continuous fun t => cos (m * t) * (1 + lmbd * sin t)).intervalIntegrable _ _)]
  have hb : ∀ t, |sin (m * t) / m + lmbd / 2 * (cos ((m - 1) * t) / (m - 1) - cos ((m + 1) * t) / (m + 1))|
      ≤ (1 + |lmbd|) * (2 / m) := by
    intro t
    have b1 : |sin (m * t) / m| ≤ 1 / m := by
      rw [abs_div, abs_of_pos (show 0 < m by linarith)]
      exact div_le_div_of_nonneg_right (abs_sin_le_one _) (by linarith)
    have b2 : |cos ((m - 1) * t) / (m - 1)| ≤ 2 / m := by
      rw [abs_div, abs_of_pos (show 0 < m - 1 by linarith), div_le_div_iff₀ (by linarith) (by linarith)]
      nlinarith [abs_cos_le_one ((m - 1) * t)]
    have b3 : |cos ((m + 1) * t) / (m + 1)| ≤ 2 / m := by
      rw [abs_div, abs_of_pos (show 0 < m + 1 by linarith), div_le_div_iff₀ (by linarith) (by linarith)]
      nlinarith [abs_cos_le_one ((m + 1) * t)]
    have b4 : |lmbd / 2 * (cos ((m - 1) * t) / (m - 1) - cos ((m + 1) * t) / (m + 1))| ≤ |lmbd| / 2 * (4 / m) := by
      rw [abs_mul, abs_div, abs_two]
      refine mul_le_mul_of_nonneg_left ((abs_sub _ _).trans ?_) (by positivity)
      have : 4 / m = 2 / m + 2 / m := by ring
      linarith
    refine (abs_add_le _ _).trans ?_
    have h2 : 1 / m ≤ 2 / m := div_le_div_of_nonneg_right (by norm_num) (by linarith)
    have : |lmbd| / 2 * (4 / m) = |lmbd| * (2 / m) := by ring
    have h3 : (1 + |lmbd|) * (2 / m) = 2 / m + |lmbd| * (2 / m) := by ring
    linarith
  have := (abs_sub (sin (m * b) / m + lmbd / 2 * (cos ((m - 1) * b) / (m - 1) - cos ((m + 1) * b) / (m + 1)))
    (sin (m * a) / m + lmbd / 2 * (cos ((m - 1) * a) / (m - 1) - cos ((m + 1) * a) / (m + 1)))).trans (add_le_add (hb b) (hb a))
  refine this.trans (le_of_eq ?_)
  ring

theorem jpKept_le (c : ℕ → ℝ) : jpKept c ≤ 256 := by
  unfold jpKept
  refine max_le (by norm_num) (Finset.sup_le fun i hi => ?_)
  have := Finset.mem_range.1 (Finset.mem_filter.1 hi).1
  omega

theorem jpKept_dropped (c : ℕ → ℝ) {i : ℕ} (h0 : jpKept c ≤ i) (h1 : i < 256) :
    |c (i + 1) / ((i + 1 : ℕ) : ℝ)| ≤ 5 / 10 ^ 12 := by
  classical
  by_contra h
  have hmem : i ∈ (Finset.range 256).filter fun i => 5 / 10 ^ 12 < |c (i + 1) / ((i + 1 : ℕ) : ℝ)| :=
    Finset.mem_filter.2 ⟨Finset.mem_range.2 h1, not_le.1 h⟩
  have := Finset.le_sup (f := fun i => i + 1) hmem
  have h2 : i + 1 ≤ jpKept c := by
    unfold jpKept
    refine le_trans ?_ (le_max_right _ _)
    convert this using 2
  omega

/-- Exact cosine coefficients of a function, counted from its centre. -/
noncomputable def cosCoeff (g : ℝ → ℝ) (n : ℕ) : ℝ := ∫ t in (0 : ℝ)..(2 * π), g t * cos ((n : ℝ) * t)

theorem cosCoeff_abs_le {g : ℝ → ℝ} (hc : Continuous g) (hnn : ∀ t, 0 ≤ g t) (hmass : ∫ t in (0 : ℝ)..(2 * π), g t = 1)
    (n : ℕ) : |cosCoeff g n| ≤ 1 := by
  unfold cosCoeff
  refine (intervalIntegral.abs_integral_le_integral_abs two_pi_pos.le).trans ?_
  rw [← hmass]
  refine intervalIntegral.integral_mono_on two_pi_pos.le ((by fun_prop : Continuous fun t => |g t * cos ((n : ℝ) * t)|).intervalIntegrable _ _)
    (hc.intervalIntegrable _ _) fun t _ => ?_
  rw [abs_mul, abs_of_nonneg (hnn t)]
  exact mul_le_of_le_one_right (hnn t) (abs_cos_le_one _)

/-- All harmonics: the partial sum is uniformly close to the density. -/
theorem grid_full_error {N M : ℕ} (hN : 2 * M < N) {g : ℝ → ℝ} (hC : ContDiff ℝ 2 g) (hper : Function.Periodic g (2 * π)) (heven : ∀ t, g (-t) = g t)
    (hnn : ∀ t, 0 ≤ g t) (hmass : ∫ t in (0 : ℝ)..(2 * π), g t = 1) {c : ℕ → ℝ}
    (hc : ∀ i, i < M → c (i + 1) = clip (2 * π / N * ∑ j ∈ Finset.range N, cos (((i + 1 : ℕ) : ℝ) * (-π + j * (2 * π / N))) * g ((-π + j * (2 * π / N)))) (-1) 1)
    (phi : ℝ) : |jpFN c M phi - g phi| ≤ 2 / π * ∑' l : ℕ, |cosCoeff g (l + M + 1)| := by
  have hpi := pi_pos
  have hser : ∀ phi, g phi = 1 / (2 * π) * (1 + 2 * ∑' l : ℕ, cosCoeff g (l + 1) * cos (((l + 1 : ℕ) : ℝ) * phi)) := by
    intro phi
    rw [cos_series hC hper heven phi, hmass]
    rfl
  have hsum : Summable fun n => |cosCoeff g n| := cos_coeff_summable hC hper
  have hsum1 : Summable fun l => |cosCoeff g (l + 1)| := (summable_nat_add_iff 1).2 hsum
  have hsumM : Summable fun l => |cosCoeff g (l + M + 1)| := (summable_nat_add_iff M).2 hsum1
  have hE := grid_coeff_error hN (cosCoeff g) hsum
  have hE2 : ∑ i ∈ Finset.range M, |c (i + 1) - cosCoeff g (i + 1)| ≤ ∑' l : ℕ, |cosCoeff g (l + M + 1)| := by
    refine le_trans (Finset.sum_le_sum fun i hi => ?_) hE
    rw [hc i (Finset.mem_range.1 hi)]
    have hb := abs_le.1 (cosCoeff_abs_le hC.continuous hnn hmass (i + 1))
    refine (clip_close hb.1 hb.2).trans (le_of_eq ?_)
    simp only [← hser]
  have s1 : Summable fun l : ℕ => cosCoeff g (l + 1) * cos (((l + 1 : ℕ) : ℝ) * phi) :=
    Summable.of_norm_bounded hsum1 fun l => by
      rw [norm_eq_abs, abs_mul]
      exact mul_le_of_le_one_right (abs_nonneg _) (abs_cos_le_one _)
  have e1 : jpFN c M phi - g phi = 1 / π * (∑ i ∈ Finset.range M, (c (i + 1) - cosCoeff g (i + 1)) * cos (((i + 1 : ℕ) : ℝ) * phi)
      - ∑' l : ℕ, cosCoeff g (l + M + 1) * cos (((l + M + 1 : ℕ) : ℝ) * phi)) := by
    rw [hser phi, ← s1.sum_add_tsum_nat_add M]
    unfold jpFN
    simp only [sub_mul]
    rw [Finset.sum_sub_distrib]
    generalize ∑ i ∈ Finset.range M, c (i + 1) * cos (((i + 1 : ℕ) : ℝ) * phi) = A
    generalize ∑ i ∈ Finset.range M, cosCoeff g (i + 1) * cos (((i + 1 : ℕ) : ℝ) * phi) = B
    generalize ∑' l : ℕ, cosCoeff g (l + M + 1) * cos (((l + M + 1 : ℕ) : ℝ) * phi) = D
    field_simp
    ring
  rw [e1, abs_mul, abs_of_pos (by positivity : (0 : ℝ) < 1 / π)]
  have b1 : |∑ i ∈ Finset.range M, (c (i + 1) - cosCoeff g (i + 1)) * cos (((i + 1 : ℕ) : ℝ) * phi)|
      ≤ ∑' l : ℕ, |cosCoeff g (l + M + 1)| := by
    refine le_trans ((Finset.abs_sum_le_sum_abs _ _).trans (Finset.sum_le_sum fun i _ => ?_)) hE2
    rw [abs_mul]
    exact mul_le_of_le_one_right (abs_nonneg _) (abs_cos_le_one _)
  have b2 : |∑' l : ℕ, cosCoeff g (l + M + 1) * cos (((l + M + 1 : ℕ) : ℝ) * phi)| ≤ ∑' l : ℕ, |cosCoeff g (l + M + 1)| :=
    tsum_of_norm_bounded (f := fun l : ℕ => cosCoeff g (l + M + 1) * cos (((l + M + 1 : ℕ) : ℝ) * phi)) hsumM.hasSum fun l => by
      rw [norm_eq_abs, abs_mul]
      exact mul_le_of_le_one_right (abs_nonneg _) (abs_cos_le_one _)
  calc 1 / π * |_ - _| ≤ 1 / π * (∑' l : ℕ, |cosCoeff g (l + M + 1)| + ∑' l : ℕ, |cosCoeff g (l + M + 1)|) :=
        mul_le_mul_of_nonneg_left ((abs_sub _ _).trans (add_le_add b1 b2)) (by positivity)
    _ = _ := by ring

/-- The 256 harmonics of the code. -/
theorem jp_full_error {g : ℝ → ℝ} (hC : ContDiff ℝ 2 g) (hper : Function.Periodic g (2 * π)) (heven : ∀ t, g (-t) = g t)
    (hnn : ∀ t, 0 ≤ g t) (hmass : ∫ t in (0 : ℝ)..(2 * π), g t = 1) {c : ℕ → ℝ}
    (hc : ∀ i, i < 256 → c (i + 1) = clip (2 * π / 4096 * ∑ j ∈ Finset.range 4096, cos (((i + 1 : ℕ) : ℝ) * jpGrid j) * g (jpGrid j)) (-1) 1)
    (phi : ℝ) : |jpFN c 256 phi - g phi| ≤ 2 / π * ∑' l : ℕ, |cosCoeff g (l + 257)| :=
  grid_full_error (N := 4096) (M := 256) (by norm_num) hC hper heven hnn hmass
    (fun i hi => by rw [hc i hi, Nat.cast_ofNat]; rfl) phi

theorem skew_factor {lmbd : ℝ} (hl : |lmbd| ≤ 1) (t : ℝ) : 0 ≤ 1 + lmbd * sin t ∧ 1 + lmbd * sin t ≤ 1 + |lmbd| := by
  have h : |lmbd * sin t| ≤ |lmbd| := by
    rw [abs_mul]; exact mul_le_of_le_one_right (abs_nonneg _) (abs_sin_le_one _)
  obtain ⟨h1, h2⟩ := abs_le.1 h
  exact ⟨by linarith, by linarith⟩

/-- The skewed function is a density again. -/
theorem skew_isCircularDensity {g : ℝ → ℝ} (hg : Continuous g) (hper : Function.Periodic g (2 * π)) (heven : ∀ t, g (-t) = g t)
    (hnn : ∀ t, 0 ≤ g t) (hmass : ∫ t in (0 : ℝ)..(2 * π), g t = 1) (xi : ℝ) {lmbd : ℝ} (hl : |lmbd| ≤ 1) :
    IsCircularDensity fun x => g (x - xi) * (1 + lmbd * sin (x - xi)) := by
  have hc : Continuous fun x => g (x - xi) := hg.comp (continuous_id.sub continuous_const)
  refine ⟨fun x _ _ => mul_nonneg (hnn _) (skew_factor hl _).1, ?_, ?_⟩
  · exact (hc.mul (by fun_prop)).intervalIntegrable _ _
  · have e : ∀ x, g (x - xi) * (1 + lmbd * sin (x - xi)) = g (x - xi) + lmbd * (g (x - xi) * sin (x - xi)) := fun x => by ring
    simp only [e]
    rw [intervalIntegral.integral_add (hc.intervalIntegrable _ _)
      ((by fun_prop : Continuous fun x => lmbd * (g (x - xi) * sin (x - xi))).intervalIntegrable _ _),
      intervalIntegral.integral_const_mul, skew_zero hg hper heven, mul_zero, add_zero,
      intervalIntegral.integral_comp_sub_right, show 2 * π - xi = (0 - xi) + 2 * π by ring,
      hper.intervalIntegral_add_eq (0 - xi) 0, zero_add, hmass]

/-- The cdf from the truncated series against the exact distribution function. -/
theorem jp_series_error {g : ℝ → ℝ} (hC : ContDiff ℝ 2 g) (hper : Function.Periodic g (2 * π)) (heven : ∀ t, g (-t) = g t)
    (hnn : ∀ t, 0 ≤ g t) (hmass : ∫ t in (0 : ℝ)..(2 * π), g t = 1) {c : ℕ → ℝ}
    (hc : ∀ i, i < 256 → c (i + 1) = clip (2 * π / 4096 * ∑ j ∈ Finset.range 4096, cos (((i + 1 : ℕ) : ℝ) * jpGrid j) * g (jpGrid j)) (-1) 1)
    {x xi lmbd : ℝ} (hl : |lmbd| ≤ 1) (hx0 : 0 ≤ x) (hx1 : x < 2 * π) :
    |jssSeriesCdf c (jpKept c) x xi lmbd - ∫ t in (0 : ℝ)..x, g (t - xi) * (1 + lmbd * sin (t - xi))|
      ≤ (1 + |lmbd|) * (2 / 10 ^ 9 + 4 * ∑' l : ℕ, |cosCoeff g (l + 257)|) := by
  have hpi := pi_pos
  have hd := skew_isCircularDensity hC.continuous hper heven hnn hmass xi hl
  have hgc : Continuous fun t => g (t - xi) * (1 + lmbd * sin (t - xi)) :=
    (hC.continuous.comp (continuous_id.sub continuous_const)).mul (by fun_prop)
  have hFc : ∀ N, Continuous fun t => jpFN c N (t - xi) * (1 + lmbd * sin (t - xi)) := fun N =>
    ((jpFN_continuous c N).comp (continuous_id.sub continuous_const)).mul (by fun_prop)
  have i0 : 0 ≤ ∫ t in (0 : ℝ)..x, g (t - xi) * (1 + lmbd * sin (t - xi)) :=
    intervalIntegral.integral_nonneg hx0 fun t ht => hd.nonneg t ht.1 (by linarith [ht.2])
  have i1 : ∫ t in (0 : ℝ)..x, g (t - xi) * (1 + lmbd * sin (t - xi)) ≤ 1 := by
    refine le_trans ?_ hd.mass.le
    exact intervalIntegral.integral_mono_interval le_rfl hx0 hx1.le
      ((ae_restrict_iff' measurableSet_Ioc).2 (Filter.Eventually.of_forall fun t ht =>
        hd.nonneg t ht.1.le ht.2)) hd.integrable
  rw [jssSeriesCdf_eq c _ lmbd hx0 hx1]
  refine (clip_close i0 i1).trans ?_
  have split : (∫ t in (0 : ℝ)..x, jpFN c (jpKept c) (t - xi) * (1 + lmbd * sin (t - xi)))
      - ∫ t in (0 : ℝ)..x, g (t - xi) * (1 + lmbd * sin (t - xi))
      = (∫ t in (0 : ℝ)..x, (jpFN c 256 (t - xi) - g (t - xi)) * (1 + lmbd * sin (t - xi)))
        - ∑ i ∈ Finset.Ico (jpKept c) 256, c (i + 1) / π * ∫ t in (0 : ℝ)..x, cos (((i + 1 : ℕ) : ℝ) * (t - xi)) * (1 + lmbd * sin (t - xi)) := by
    simp only [sub_mul]
    rw [intervalIntegral.integral_sub ((hFc 256).intervalIntegrable _ _) (hgc.intervalIntegrable _ _)]
    have e : ∫ t in (0 : ℝ)..x, jpFN c 256 (t - xi) * (1 + lmbd * sin (t - xi))
        = (∫ t in (0 : ℝ)..x, jpFN c (jpKept c) (t - xi) * (1 + lmbd * sin (t - xi)))
          + ∑ i ∈ Finset.Ico (jpKept c) 256, c (i + 1) / π * ∫ t in (0 : ℝ)..x, cos (((i + 1 : ℕ) : ℝ) * (t - xi)) * (1 + lmbd * sin (t - xi)) := by
      simp only [← intervalIntegral.integral_const_mul]
      rw [← intervalIntegral.integral_finsetSum (fun i _ =>
        (by fun_prop : Continuous fun t => c (i + 1) / π * (cos (((i + 1 : ℕ) : ℝ) * (t - xi)) * (1 + lmbd * sin (t - xi)))).intervalIntegrable _ _),
        ← intervalIntegral.integral_add ((hFc _).intervalIntegrable _ _)
          ((by fun_prop : Continuous fun t => ∑ i ∈ Finset.Ico (jpKept c) 256, c (i + 1) / π * (cos (((i + 1 : ℕ) : ℝ) * (t - xi)) * (1 + lmbd * sin (t - xi)))).intervalIntegrable _ _)]
      refine intervalIntegral.integral_congr fun t _ => ?_
      have h1 := Finset.sum_range_add_sum_Ico (fun i => c (i + 1) * cos (((i + 1 : ℕ) : ℝ) * (t - xi))) (jpKept_le c)
      have h2 : ∑ i ∈ Finset.Ico (jpKept c) 256, c (i + 1) / π * (cos (((i + 1 : ℕ) : ℝ) * (t - xi)) * (1 + lmbd * sin (t - xi)))
          = 1 / π * (∑ i ∈ Finset.Ico (jpKept c) 256, c (i + 1) * cos (((i + 1 : ℕ) : ℝ) * (t - xi))) * (1 + lmbd * sin (t - xi)) := by
        rw [Finset.mul_sum, Finset.sum_mul]
        exact Finset.sum_congr rfl fun i _ => by ring
      rw [h2]
      unfold jpFN
      rw [← h1]
      generalize ∑ i ∈ Finset.Ico (jpKept c) 256, c (i + 1) * cos (((i + 1 : ℕ) : ℝ) * (t - xi)) = A
      generalize ∑ i ∈ Finset.range (jpKept c), c (i + 1) * cos (((i + 1 : ℕ) : ℝ) * (t - xi)) = B
      field_simp
      ring
    rw [e]
    ring
  rw [split]
  have b1 : |∫ t in (0 : ℝ)..x, (jpFN c 256 (t - xi) - g (t - xi)) * (1 + lmbd * sin (t - xi))|
      ≤ (1 + |lmbd|) * (4 * ∑' l : ℕ, |cosCoeff g (l + 257)|) := by
    have hT : 0 ≤ ∑' l : ℕ, |cosCoeff g (l + 257)| := tsum_nonneg fun _ => abs_nonneg _
    have := intervalIntegral.norm_integral_le_of_norm_le_const (a := 0) (b := x)
      (f := fun t => (jpFN c 256 (t - xi) - g (t - xi)) * (1 + lmbd * sin (t - xi)))
      (C := 2 / π * (∑' l : ℕ, |cosCoeff g (l + 257)|) * (1 + |lmbd|)) fun t _ => by
        rw [norm_eq_abs, abs_mul, abs_of_nonneg (skew_factor hl (t - xi)).1]
        exact mul_le_mul (jp_full_error hC hper heven hnn hmass hc _) (skew_factor hl _).2 (skew_factor hl _).1 (by positivity)
    rw [norm_eq_abs, sub_zero, abs_of_nonneg hx0] at this
    refine this.trans ((mul_le_mul_of_nonneg_left hx1.le (by positivity)).trans (le_of_eq ?_))
    field_simp
    ring
  have b2 : |∑ i ∈ Finset.Ico (jpKept c) 256, c (i + 1) / π * ∫ t in (0 : ℝ)..x, cos (((i + 1 : ℕ) : ℝ) * (t - xi)) * (1 + lmbd * sin (t - xi))|
      ≤ (1 + |lmbd|) * (2 / 10 ^ 9) := by
    have hK : 1 ≤ jpKept c := le_max_left _ _
    have hterm : ∀ i ∈ Finset.Ico (jpKept c) 256, |c (i + 1) / π * ∫ t in (0 : ℝ)..x, cos (((i + 1 : ℕ) : ℝ) * (t - xi)) * (1 + lmbd * sin (t - xi))|
        ≤ (1 + |lmbd|) * (20 / 3 / 10 ^ 12) := by
      intro i hi
      obtain ⟨hi1, hi2⟩ := Finset.mem_Ico.1 hi
      have hdrop := jpKept_dropped c hi1 hi2
      rw [intervalIntegral.integral_comp_sub_right (fun t => cos (((i + 1 : ℕ) : ℝ) * t) * (1 + lmbd * sin t))]
      have ho := osc_integral (i + 1) (by omega) lmbd (0 - xi) (x - xi)
      have hi0 : (0 : ℝ) < ((i + 1 : ℕ) : ℝ) := by positivity
      rw [abs_div, abs_of_pos hi0, div_le_iff₀ hi0] at hdrop
      rw [abs_mul, abs_div, abs_of_pos hpi]
      have h3 : |c (i + 1)| / π ≤ 5 / 10 ^ 12 * ((i + 1 : ℕ) : ℝ) / 3 :=
        div_le_div₀ (by positivity) hdrop (by norm_num) pi_gt_three.le
      refine (mul_le_mul h3 ho (abs_nonneg _) (by positivity)).trans (le_of_eq ?_)
      field_simp
      norm_num
    refine (Finset.abs_sum_le_sum_abs _ _).trans ((Finset.sum_le_sum hterm).trans ?_)
    rw [Finset.sum_const, Nat.card_Ico, nsmul_eq_mul]
    have hcard : ((256 - jpKept c : ℕ) : ℝ) ≤ 255 := by
      have : 256 - jpKept c ≤ 255 := by omega
      exact_mod_cast this
    have hl0 := abs_nonneg lmbd
    have : ((256 - jpKept c : ℕ) : ℝ) * ((1 + |lmbd|) * (20 / 3 / 10 ^ 12)) ≤ 255 * ((1 + |lmbd|) * (20 / 3 / 10 ^ 12)) :=
      mul_le_mul_of_nonneg_right hcard (by positivity)
    refine this.trans ?_
    nlinarith
  refine (abs_sub _ _).trans ((add_le_add b1 b2).trans (le_of_eq ?_))
  ring

/-! ## The Jones-Pewsey kernel -/

theorem jpKernel_contDiff {kappa psi : ℝ} (hpsi : 1 / 10 ^ 6 ≤ |psi| ∨ psi = 0) (hA : |kappa * psi| ≤ 700) :
    ContDiff ℝ 2 fun phi => jpKernel phi kappa psi := by
  simp only [jpShape_kernel hpsi hA]
  unfold jpShape
  split_ifs
  · exact contDiff_exp.comp (contDiff_const.mul contDiff_cos)
  · exact ContDiff.rpow_const_of_ne (contDiff_const.add (contDiff_const.mul contDiff_cos))
      fun phi => (jp_base_pos (kappa * psi) phi).ne'

end Verif
