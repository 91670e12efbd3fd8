import Verif.Props.Kde

/-! # C29: the curve of the density estimate and the bandwidth -/

set_option autoImplicit false

namespace Verif.Props

open Verif Verif.Spec Real MeasureTheory

/-- C29. The curve drawn at distance `f` outside the circle: the 100 angles go from 0 to `2π` in equal steps, and the area
between circle and curve is proportional to the density estimate; altogether it is half the area of the circle. -/
theorem C29_area (alpha : List ℝ) (h radius : ℝ) (hne : alpha ≠ []) (hh : 0 < h) (hpi : h ≤ π)
    (ha : ∀ a ∈ alpha, 0 ≤ a ∧ a ≤ 2 * π) (hr : 0 ≤ radius) :
    ∃ f : ℝ → ℝ,
      (∀ i : ℕ, i < 100 → (kde alpha h radius).1[i]? = some (i * (2 * π / 99)) ∧
        (kde alpha h radius).2[i]? = some (f (i * (2 * π / 99)))) ∧
      (∀ x, 0 ≤ f x ∧ (radius + f x) ^ 2 - radius ^ 2 = π * radius ^ 2 * kdeAt alpha h x) ∧
      1 / 2 * ∫ x in (0 : ℝ)..(2 * π), ((radius + f x) ^ 2 - radius ^ 2) = π * radius ^ 2 / 2 := by
  have hsq : ∀ x, (radius + (radius * sqrt (1 + π * kdeAt alpha h x) - radius)) ^ 2 - radius ^ 2
      = π * radius ^ 2 * kdeAt alpha h x := fun x => by
    have h1 : 0 ≤ 1 + π * kdeAt alpha h x := by
      have := mul_nonneg pi_pos.le (C29_kde_nonneg alpha h x hh)
      linarith
    rw [add_sub_cancel, mul_pow, sq_sqrt h1]
    ring
  refine ⟨fun x => radius * sqrt (1 + π * kdeAt alpha h x) - radius, fun i hi => ?_, fun x => ⟨?_, hsq x⟩, ?_⟩
  · simp [kde, kdeGrid, hi]
  · have h1 : 1 ≤ sqrt (1 + π * kdeAt alpha h x) := by
      rw [one_le_sqrt]
      have := mul_nonneg pi_pos.le (C29_kde_nonneg alpha h x hh)
      linarith
    nlinarith
  · simp only [hsq]
    rw [intervalIntegral.integral_const_mul, C29_kde_mass alpha h hne hh hpi ha]
    ring

/-- C29. The bandwidth for a positive estimate `κ` of the concentration is `√(7/κ) / n^(1/5)`. With more than 15
observations, 32 times as many of the same concentration halve it. -/
theorem C29_bandwidth (r : ℝ) (n : ℕ) (hn : 0 < n) (hk : 0 < circKappa r (some n)) :
    smoothParam r n = some (sqrt (7 / circKappa r (some n)) / (n : ℝ) ^ (1 / 5 : ℝ)) ∧
    (15 < n → smoothParam r (32 * n) = (smoothParam r n).map fun h => h / 2) := by
  have hv : ∀ m : ℕ, 0 < m → 0 < circKappa r (some m) →
      smoothParam r m = some (sqrt (7 / circKappa r (some m)) / (m : ℝ) ^ (1 / 5 : ℝ)) := fun m hm hk => by
    have hm' : (0 : ℝ) < m := by exact_mod_cast hm
    have h1 : sqrt (circKappa r (some m)) ≠ 0 := (sqrt_pos.2 hk).ne'
    have h2 : (m : ℝ) ^ (1 / 5 : ℝ) ≠ 0 := (rpow_pos_of_pos hm' _).ne'
    unfold smoothParam
    rw [show (0.2 : ℝ) = 1 / 5 by norm_num]
    simp only [pysqrt, pydiv, hk.le.not_gt, h1, h2, if_false, Option.bind_some]
    rw [sqrt_div (by norm_num)]
    simp [div_eq_mul_inv]
  refine ⟨hv n hn hk, fun h15 => ?_⟩
  have he : ∀ m : ℕ, 15 < m → circKappa r (some m) = kappaRaw r := fun m hm => by
    simp only [circKappa]
    rw [if_neg (by omega)]
  have hk' : 0 < circKappa r (some (32 * n)) := by rw [he _ (by omega), ← he n h15]; exact hk
  rw [hv _ (by omega) hk', hv n hn hk, he _ h15, he _ (by omega), Option.map_some]
  have h32 : (32 : ℝ) ^ (1 / 5 : ℝ) = 2 := by
    rw [show (32 : ℝ) = 2 ^ (5 : ℝ) by norm_num, ← rpow_mul (by norm_num)]; norm_num
  push_cast
  rw [mul_rpow (by norm_num) (by positivity), h32]
  congr 1
  field_simp

/-- Non-vacuity: one observation at 1, bandwidth 1, unit circle; and 20 observations with `r = 1/2`. -/
example : (∃ f : ℝ → ℝ, 1 / 2 * ∫ x in (0 : ℝ)..(2 * π), ((1 + f x) ^ 2 - 1 ^ 2) = π * 1 ^ 2 / 2) ∧
    0 < circKappa (1 / 2) (some 20) := by
  have := pi_gt_three
  obtain ⟨f, -, -, h⟩ := C29_area [1] 1 1 (by simp) (by norm_num) (by linarith) (by
    intro a ha
    rw [List.mem_singleton.1 ha]
    exact ⟨by norm_num, by linarith⟩) (by norm_num)
  refine ⟨⟨f, h⟩, ?_⟩
  norm_num [circKappa, kappaRaw]

end Verif.Props
