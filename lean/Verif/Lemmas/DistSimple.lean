import Verif.Model.DistSimple
import Verif.Lemmas.Distn
import Mathlib.Analysis.SpecialFunctions.Integrals.Basic
import Mathlib.Analysis.Real.Pi.Bounds

/-! # Lemmas on the uniform, triangular and cardioid distributions -/

set_option autoImplicit false

namespace Verif

open Real Verif.Spec MeasureTheory

theorem isclose_zero_iff {x atol : ℝ} : isclose x 0 rtolDefault atol ↔ |x| ≤ atol := by
  unfold isclose; simp

/-! ## The triangular distribution -/

theorem triPdf_left {t rho : ℝ} (h : t ≤ π) :
    triPdf t rho = (4 + π ^ 2 * rho - 2 * π * rho * t) / (8 * π) := by
  unfold triPdf
  rw [abs_of_nonneg (by linarith), div_div]; congr 1; ring

theorem triPdf_right {t rho : ℝ} (h : π ≤ t) :
    triPdf t rho = (4 - 3 * π ^ 2 * rho + 2 * π * rho * t) / (8 * π) := by
  unfold triPdf
  rw [abs_of_nonpos (by linarith), div_div]; congr 1; ring

theorem integral_affine (a b A B : ℝ) :
    ∫ t in a..b, (A + B * t) = A * (b - a) + B * (b ^ 2 - a ^ 2) / 2 := by
  have h : ∀ t ∈ Set.uIcc a b, HasDerivAt (fun t : ℝ => A * t + B * t ^ 2 / 2) (A + B * t) t := by
    intro t _
    have h1 := ((hasDerivAt_id t).const_mul A).add (((hasDerivAt_id t).pow 2).const_mul (B / 2))
    refine (h1.congr_deriv ?_).congr_of_eventuallyEq ?_
    · simp; ring
    · exact Filter.Eventually.of_forall fun s => by simp; ring
  rw [intervalIntegral.integral_eq_sub_of_hasDerivAt h
    ((by fun_prop : Continuous fun t : ℝ => A + B * t).intervalIntegrable _ _)]
  ring

theorem triPdf_continuous (rho : ℝ) : Continuous fun t => triPdf t rho := by
  unfold triPdf; fun_prop

theorem triPdf_integral_left {x rho : ℝ} (h0 : 0 ≤ x) (h : x ≤ π) :
    ∫ t in (0 : ℝ)..x, triPdf t rho
      = ((4 + π ^ 2 * rho) * x - π * rho * x ^ 2) / (8 * π) := by
  have hpi := pi_pos
  have hc : ∫ t in (0 : ℝ)..x, triPdf t rho
      = ∫ t in (0 : ℝ)..x, ((4 + π ^ 2 * rho) / (8 * π) + (-(2 * π * rho) / (8 * π)) * t) := by
    apply intervalIntegral.integral_congr
    intro t ht
    rw [Set.uIcc_of_le h0] at ht
    simp only
    rw [triPdf_left (ht.2.trans h)]; ring
  rw [hc, integral_affine]; ring

theorem triPdf_integral_right {x rho : ℝ} (h : π ≤ x) :
    ∫ t in (0 : ℝ)..x, triPdf t rho
      = 1 / 2 + ((4 - 3 * π ^ 2 * rho) * (x - π) + π * rho * (x ^ 2 - π ^ 2)) / (8 * π) := by
  have hpi := pi_pos
  have hi := fun a b : ℝ => (triPdf_continuous rho).intervalIntegrable (μ := volume) a b
  rw [← intervalIntegral.integral_add_adjacent_intervals (hi 0 π) (hi π x),
    triPdf_integral_left hpi.le le_rfl]
  have hc : ∫ t in π..x, triPdf t rho
      = ∫ t in π..x, ((4 - 3 * π ^ 2 * rho) / (8 * π) + (2 * π * rho / (8 * π)) * t) := by
    apply intervalIntegral.integral_congr
    intro t ht
    rw [Set.uIcc_of_le h] at ht
    simp only
    rw [triPdf_right ht.1]; ring
  rw [hc, integral_affine]
  field_simp
  ring

theorem triCdf_left {x rho : ℝ} (h0 : 0 ≤ x) (h : x ≤ π) :
    triCdf x rho = ((4 + π ^ 2 * rho) * x - π * rho * x ^ 2) / (8 * π) := by
  have hpi := pi_pos
  unfold triCdf
  rw [if_neg (by linarith), if_neg (by intro h'; linarith [h'.1]), if_pos ⟨h0, h⟩]

theorem triCdf_right {x rho : ℝ} (h : π ≤ x) (h2 : x ≤ 2 * π) :
    triCdf x rho
      = 1 / 2 + ((4 - 3 * π ^ 2 * rho) * (x - π) + π * rho * (x ^ 2 - π ^ 2)) / (8 * π) := by
  have hpi := pi_pos
  rcases h2.eq_or_lt with e | e
  · unfold triCdf
    rw [if_pos e.ge, e]; field_simp; ring
  · rcases h.eq_or_lt with e' | e'
    · rw [← e', triCdf_left hpi.le le_rfl]; field_simp; ring
    · unfold triCdf
      rw [if_neg (by linarith), if_pos ⟨e', e⟩]

theorem triCdf_eq_integral {x rho : ℝ} (h0 : 0 ≤ x) (h2 : x ≤ 2 * π) :
    triCdf x rho = ∫ t in (0 : ℝ)..x, triPdf t rho := by
  rcases le_total x π with h | h
  · rw [triCdf_left h0 h, triPdf_integral_left h0 h]
  · rw [triCdf_right h h2, triPdf_integral_right h]

theorem triP_le {rho : ℝ} (h : rho ≤ 4 / π ^ 2) : π ^ 2 * rho ≤ 4 := by
  have : (0 : ℝ) < π ^ 2 := by positivity
  rw [le_div_iff₀ this] at h; linarith

theorem triPdf_bounds {x rho : ℝ} (hx0 : 0 ≤ x) (hx : x ≤ 2 * π) (h0 : 0 ≤ rho)
    (h1 : rho ≤ 4 / π ^ 2) : 0 ≤ triPdf x rho ∧ triPdf x rho ≤ 1 / π := by
  have hpi := pi_pos
  have hp := triP_le h1
  have ha : |π - x| ≤ π := abs_le.mpr ⟨by linarith, by linarith⟩
  have h2 : 0 ≤ 2 * π * rho * |π - x| := by positivity
  have h3 : 2 * π * rho * |π - x| ≤ 2 * π * rho * π :=
    mul_le_mul_of_nonneg_left ha (by positivity)
  unfold triPdf
  constructor
  · exact div_nonneg (div_nonneg (by linarith) (by norm_num)) hpi.le
  · apply div_le_div_of_nonneg_right _ hpi.le
    rw [div_le_one (by norm_num)]
    nlinarith

theorem tri_isCircularDensity {rho : ℝ} (h0 : 0 ≤ rho) (h1 : rho ≤ 4 / π ^ 2) :
    IsCircularDensity fun x => triPdf x rho := by
  have hpi := pi_pos
  refine ⟨fun x hx0 hx => (triPdf_bounds hx0 hx h0 h1).1,
    (triPdf_continuous rho).intervalIntegrable _ _, ?_⟩
  rw [← triCdf_eq_integral two_pi_pos.le le_rfl]
  unfold triCdf; simp

/-- A distribution function with density between 0 and 1. -/
theorem integral_sub_bounds {f : ℝ → ℝ} (hf : Continuous f) {M : ℝ}
    (hb : ∀ x, 0 ≤ x → x ≤ 2 * π → 0 ≤ f x ∧ f x ≤ M) {x y : ℝ} (hx0 : 0 ≤ x) (hxy : x ≤ y)
    (hy : y ≤ 2 * π) :
    0 ≤ (∫ t in (0 : ℝ)..y, f t) - ∫ t in (0 : ℝ)..x, f t ∧
    (∫ t in (0 : ℝ)..y, f t) - (∫ t in (0 : ℝ)..x, f t) ≤ M * (y - x) := by
  have hi := fun a b : ℝ => hf.intervalIntegrable (μ := volume) a b
  rw [intervalIntegral.integral_interval_sub_left (hi 0 y) (hi 0 x)]
  constructor
  · apply intervalIntegral.integral_nonneg hxy
    intro t ht
    exact (hb t (hx0.trans ht.1) (ht.2.trans hy)).1
  · have : ∫ t in x..y, f t ≤ ∫ t in x..y, M := by
      apply intervalIntegral.integral_mono_on hxy (hi x y) intervalIntegrable_const
      intro t ht
      exact (hb t (hx0.trans ht.1) (ht.2.trans hy)).2
    rw [intervalIntegral.integral_const, smul_eq_mul] at this
    linarith

/-- The quadratic solved for the lower half. -/
theorem triPpfRaw_left {q rho : ℝ} (hr : 0 < rho) (h1 : rho ≤ 4 / π ^ 2) (hn : 1 / 10 ^ 12 < rho)
    (hq0 : 0 ≤ q) (hq : q ≤ 1 / 2) :
    0 ≤ triPpfRaw q rho ∧ triPpfRaw q rho ≤ π ∧ triCdf (triPpfRaw q rho) rho = q := by
  have hpi := pi_pos
  have hp := triP_le h1
  have hnc : ¬ isclose rho 0 rtolDefault (1 / 10 ^ 12) := by
    rw [isclose_zero_iff, abs_of_pos hr]; exact not_le.mpr hn
  have hraw : triPpfRaw q rho = ((4 + π ^ 2 * rho) / π
      - sqrt (((4 + π ^ 2 * rho) / π) ^ 2 - 32 * rho * q)) / (2 * rho) := by
    unfold triPpfRaw
    rw [if_neg hnc, if_pos hq]
    simp only
    have hd : (-(4 + π ^ 2 * rho) / π) ^ 2 - 4 * rho * (8 * q)
        = ((4 + π ^ 2 * rho) / π) ^ 2 - 32 * rho * q := by ring
    rw [hd, max_eq_left]
    · ring
    · have : ((4 + π ^ 2 * rho) / π) ^ 2 - 16 * rho = ((4 - π ^ 2 * rho) / π) ^ 2 := by
        field_simp; ring
      nlinarith [sq_nonneg ((4 - π ^ 2 * rho) / π)]
  have hB : 0 < (4 + π ^ 2 * rho) / π := by positivity
  have hsq : ((4 + π ^ 2 * rho) / π) ^ 2 - 16 * rho = ((4 - π ^ 2 * rho) / π) ^ 2 := by
    field_simp; ring
  have hS0 := sqrt_nonneg (((4 + π ^ 2 * rho) / π) ^ 2 - 32 * rho * q)
  have hSS : sqrt (((4 + π ^ 2 * rho) / π) ^ 2 - 32 * rho * q) ^ 2
      = ((4 + π ^ 2 * rho) / π) ^ 2 - 32 * rho * q := by
    apply sq_sqrt
    nlinarith [sq_nonneg ((4 - π ^ 2 * rho) / π)]
  have hSle : sqrt (((4 + π ^ 2 * rho) / π) ^ 2 - 32 * rho * q) ≤ (4 + π ^ 2 * rho) / π := by
    rw [sqrt_le_left hB.le]
    nlinarith [mul_nonneg hr.le hq0]
  have hSge : (4 - π ^ 2 * rho) / π ≤ sqrt (((4 + π ^ 2 * rho) / π) ^ 2 - 32 * rho * q) := by
    apply le_sqrt_of_sq_le
    rw [← hsq]; nlinarith
  set S := sqrt (((4 + π ^ 2 * rho) / π) ^ 2 - 32 * rho * q) with hS
  have hx0 : 0 ≤ triPpfRaw q rho := by
    rw [hraw]; exact div_nonneg (by linarith) (by linarith)
  have hxp : triPpfRaw q rho ≤ π := by
    rw [hraw, div_le_iff₀ (by linarith)]
    have : (4 + π ^ 2 * rho) / π - (4 - π ^ 2 * rho) / π = π * (2 * rho) := by
      field_simp; ring
    linarith
  refine ⟨hx0, hxp, ?_⟩
  rw [triCdf_left hx0 hxp]
  have hS' : S = (4 + π ^ 2 * rho) / π - 2 * rho * triPpfRaw q rho := by
    rw [hraw]; field_simp; ring
  rw [hS'] at hSS
  have h2 : (4 + π ^ 2 * rho) / π * triPpfRaw q rho - rho * triPpfRaw q rho ^ 2 = 8 * q := by
    have h3 : 4 * rho * ((4 + π ^ 2 * rho) / π * triPpfRaw q rho - rho * triPpfRaw q rho ^ 2)
        = 4 * rho * (8 * q) := by linarith
    exact mul_left_cancel₀ (by positivity) h3
  have h4 : ((4 + π ^ 2 * rho) * triPpfRaw q rho - π * rho * triPpfRaw q rho ^ 2) / (8 * π)
      = ((4 + π ^ 2 * rho) / π * triPpfRaw q rho - rho * triPpfRaw q rho ^ 2) / 8 := by
    field_simp
  rw [h4, h2]; ring

/-- The quadratic solved for the upper half. -/
theorem triPpfRaw_right {q rho : ℝ} (hr : 0 < rho) (h1 : rho ≤ 4 / π ^ 2) (hn : 1 / 10 ^ 12 < rho)
    (hq0 : 1 / 2 < q) (hq : q ≤ 1) :
    π ≤ triPpfRaw q rho ∧ triPpfRaw q rho ≤ 2 * π ∧ triCdf (triPpfRaw q rho) rho = q := by
  have hpi := pi_pos
  have hp := triP_le h1
  have hnc : ¬ isclose rho 0 rtolDefault (1 / 10 ^ 12) := by
    rw [isclose_zero_iff, abs_of_pos hr]; exact not_le.mpr hn
  have hlo : ((4 - 3 * π ^ 2 * rho) / π) ^ 2 - 4 * rho * (2 * π ^ 2 * rho - 8 * (1 / 2))
      = ((4 - π ^ 2 * rho) / π) ^ 2 := by
    field_simp; ring
  have hhi : ((4 - 3 * π ^ 2 * rho) / π) ^ 2 - 4 * rho * (2 * π ^ 2 * rho - 8 * 1)
      = ((4 + π ^ 2 * rho) / π) ^ 2 := by
    field_simp; ring
  set D := ((4 - 3 * π ^ 2 * rho) / π) ^ 2 - 4 * rho * (2 * π ^ 2 * rho - 8 * q) with hD
  have hDlo : ((4 - π ^ 2 * rho) / π) ^ 2 ≤ D := by rw [hD]; nlinarith
  have hDhi : D ≤ ((4 + π ^ 2 * rho) / π) ^ 2 := by rw [hD]; nlinarith
  have hD0 : 0 ≤ D := (sq_nonneg _).trans hDlo
  have hraw : triPpfRaw q rho = (-((4 - 3 * π ^ 2 * rho) / π) + sqrt D) / (2 * rho) := by
    unfold triPpfRaw
    rw [if_neg hnc, if_neg (by linarith)]
    simp only
    rw [← hD, max_eq_left hD0]
  have hSS : sqrt D ^ 2 = D := sq_sqrt hD0
  have hSle : sqrt D ≤ (4 + π ^ 2 * rho) / π := by
    rw [sqrt_le_left (by positivity)]; exact hDhi
  have hSge : (4 - π ^ 2 * rho) / π ≤ sqrt D := le_sqrt_of_sq_le hDlo
  have hx0 : π ≤ triPpfRaw q rho := by
    rw [hraw, le_div_iff₀ (by linarith)]
    have : (4 - π ^ 2 * rho) / π - (4 - 3 * π ^ 2 * rho) / π = π * (2 * rho) := by
      field_simp; ring
    linarith
  have hxp : triPpfRaw q rho ≤ 2 * π := by
    rw [hraw, div_le_iff₀ (by linarith)]
    have : (4 + π ^ 2 * rho) / π - (4 - 3 * π ^ 2 * rho) / π = 2 * π * (2 * rho) := by
      field_simp; ring
    linarith
  refine ⟨hx0, hxp, ?_⟩
  rw [triCdf_right hx0 hxp]
  have hS' : sqrt D = (4 - 3 * π ^ 2 * rho) / π + 2 * rho * triPpfRaw q rho := by
    rw [hraw]; field_simp; ring
  rw [hS', hD] at hSS
  have h2 : (4 - 3 * π ^ 2 * rho) / π * triPpfRaw q rho + rho * triPpfRaw q rho ^ 2
      = 8 * q - 2 * π ^ 2 * rho := by
    have h3 : 4 * rho * ((4 - 3 * π ^ 2 * rho) / π * triPpfRaw q rho + rho * triPpfRaw q rho ^ 2)
        = 4 * rho * (8 * q - 2 * π ^ 2 * rho) := by linarith
    exact mul_left_cancel₀ (by positivity) h3
  have h4 : ((4 - 3 * π ^ 2 * rho) * (triPpfRaw q rho - π)
        + π * rho * (triPpfRaw q rho ^ 2 - π ^ 2)) / (8 * π)
      = ((4 - 3 * π ^ 2 * rho) / π * triPpfRaw q rho + rho * triPpfRaw q rho ^ 2
        - (4 - 2 * π ^ 2 * rho)) / 8 := by
    field_simp; ring
  rw [h4, h2]; ring

theorem triCdf_sub {rho : ℝ} (h0 : 0 ≤ rho) (h1 : rho ≤ 4 / π ^ 2) {x y : ℝ} (hx0 : 0 ≤ x)
    (hxy : x ≤ y) (hy : y ≤ 2 * π) :
    0 ≤ triCdf y rho - triCdf x rho ∧ triCdf y rho - triCdf x rho ≤ (y - x) / π := by
  rw [triCdf_eq_integral hx0 (hxy.trans hy), triCdf_eq_integral (hx0.trans hxy) hy]
  have := integral_sub_bounds (triPdf_continuous rho) (M := 1 / π)
    (fun x a b => triPdf_bounds a b h0 h1) hx0 hxy hy
  refine ⟨this.1, this.2.trans (le_of_eq (by ring))⟩

/-- Every quantile before the clip. -/
theorem triPpfRaw_spec {q rho : ℝ} (h0 : 0 ≤ rho) (h1 : rho ≤ 4 / π ^ 2) (hq0 : 0 ≤ q)
    (hq : q ≤ 1) : 0 ≤ triPpfRaw q rho ∧ triPpfRaw q rho ≤ 2 * π ∧
      |triCdf (triPpfRaw q rho) rho - q| ≤ 1 / 10 ^ 12 / 2 ∧
      (1 / 10 ^ 12 < rho → triCdf (triPpfRaw q rho) rho = q) := by
  have hpi := pi_pos
  by_cases hn : 1 / 10 ^ 12 < rho
  · have hr : 0 < rho := lt_trans (by positivity) hn
    rcases le_or_gt q (1 / 2) with h | h
    · obtain ⟨a, b, c⟩ := triPpfRaw_left hr h1 hn hq0 h
      exact ⟨a, by linarith, by rw [c, sub_self, abs_zero]; positivity, fun _ => c⟩
    · obtain ⟨a, b, c⟩ := triPpfRaw_right hr h1 hn h hq
      exact ⟨by linarith, b, by rw [c, sub_self, abs_zero]; positivity, fun _ => c⟩
  · have hr := not_lt.mp hn
    have hraw : triPpfRaw q rho = q * (2 * π) := by
      unfold triPpfRaw
      rw [if_pos (by rw [isclose_zero_iff, abs_of_nonneg h0]; exact hr)]
    rw [hraw]
    have hx0 : 0 ≤ q * (2 * π) := by positivity
    have hx1 : q * (2 * π) ≤ 2 * π := by nlinarith
    refine ⟨hx0, hx1, ?_, fun h => absurd h hn⟩
    have hpi4 : π ^ 2 < 10 := by nlinarith [pi_lt_d2]
    rcases le_total q (1 / 2) with h | h
    · rw [triCdf_left hx0 (by nlinarith)]
      have : ((4 + π ^ 2 * rho) * (q * (2 * π)) - π * rho * (q * (2 * π)) ^ 2) / (8 * π) - q
          = π ^ 2 * rho * (q * (1 - 2 * q)) / 4 := by field_simp; ring
      rw [this, abs_of_nonneg (by
        have : 0 ≤ q * (1 - 2 * q) := mul_nonneg hq0 (by linarith)
        positivity)]
      have hb : q * (1 - 2 * q) ≤ 1 / 8 := by nlinarith [sq_nonneg (q - 1 / 4)]
      have hc : π ^ 2 * rho ≤ 10 * (1 / 10 ^ 12) := by nlinarith
      have hd : 0 ≤ q * (1 - 2 * q) := mul_nonneg hq0 (by linarith)
      nlinarith [mul_nonneg (sq_nonneg π) h0]
    · rw [triCdf_right (by nlinarith) hx1]
      have : 1 / 2 + ((4 - 3 * π ^ 2 * rho) * (q * (2 * π) - π)
            + π * rho * ((q * (2 * π)) ^ 2 - π ^ 2)) / (8 * π) - q
          = -(π ^ 2 * rho * ((2 * q - 1) * (1 - q)) / 4) := by field_simp; ring
      have hd : 0 ≤ (2 * q - 1) * (1 - q) := mul_nonneg (by linarith) (by linarith)
      rw [this, abs_neg, abs_of_nonneg (by positivity)]
      have hb : (2 * q - 1) * (1 - q) ≤ 1 / 8 := by nlinarith [sq_nonneg (q - 3 / 4)]
      have hc : π ^ 2 * rho ≤ 10 * (1 / 10 ^ 12) := by nlinarith
      nlinarith [mul_nonneg (sq_nonneg π) h0]

theorem floatEps_bounds : 0 < floatEps ∧ floatEps < 1 / 10 ^ 15 := by
  unfold floatEps; constructor <;> norm_num

theorem triPpf_spec {q rho : ℝ} (h0 : 0 ≤ rho) (h1 : rho ≤ 4 / π ^ 2) (hq0 : 0 ≤ q) (hq : q ≤ 1) :
    0 ≤ triPpf q rho ∧ triPpf q rho ≤ 2 * π ∧ |triCdf (triPpf q rho) rho - q| ≤ 9 / 10 ^ 13 ∧
      (1 / 10 ^ 12 < rho → q ≤ 1 - 1 / 10 ^ 14 → triPpf q rho = triPpfRaw q rho ∧
        triPpf q rho ≤ 2 * π - 1 / 10 ^ 14 ∧ triCdf (triPpf q rho) rho = q) := by
  have hpi := pi_gt_three
  obtain ⟨he0, he1⟩ := floatEps_bounds
  obtain ⟨a, b, c, d⟩ := triPpfRaw_spec h0 h1 hq0 hq
  have hcl : triPpf q rho = min (triPpfRaw q rho) (2 * π - floatEps) := by
    unfold triPpf clip
    rw [max_eq_left a]
  rw [hcl]
  have hm0 : 0 ≤ min (triPpfRaw q rho) (2 * π - floatEps) := le_min a (by linarith)
  have hm1 : min (triPpfRaw q rho) (2 * π - floatEps) ≤ 2 * π := (min_le_left _ _).trans b
  refine ⟨hm0, hm1, ?_, ?_⟩
  · have hs := triCdf_sub h0 h1 hm0 (min_le_left _ _) b
    have hdiff : triPpfRaw q rho - min (triPpfRaw q rho) (2 * π - floatEps) ≤ floatEps := by
      rcases min_cases (triPpfRaw q rho) (2 * π - floatEps) with ⟨h, _⟩ | ⟨h, _⟩ <;> rw [h] <;>
        linarith
    have h2 : (triPpfRaw q rho - min (triPpfRaw q rho) (2 * π - floatEps)) / π ≤ 1 / 10 ^ 15 := by
      rw [div_le_iff₀ (by linarith)]; nlinarith
    rw [abs_le] at c ⊢
    constructor
    · have : (9 : ℝ) / 10 ^ 13 = 1 / 10 ^ 12 / 2 + 4 / 10 ^ 13 := by norm_num
      have : (1 : ℝ) / 10 ^ 15 < 4 / 10 ^ 13 := by norm_num
      linarith [c.1, hs.2]
    · have : (9 : ℝ) / 10 ^ 13 = 1 / 10 ^ 12 / 2 + 4 / 10 ^ 13 := by norm_num
      have : (0 : ℝ) < 4 / 10 ^ 13 := by norm_num
      linarith [c.2, hs.1]
  · intro hr hq'
    have hc := d hr
    have hlt : triPpfRaw q rho ≤ 2 * π - 1 / 10 ^ 14 := by
      have hs := (triCdf_sub h0 h1 a b le_rfl).2
      have h2 : triCdf (2 * π) rho = 1 := by unfold triCdf; simp
      rw [h2, hc, le_div_iff₀ (by linarith)] at hs
      have : (0 : ℝ) < 1 / 10 ^ 14 := by positivity
      nlinarith
    have : (1 : ℝ) / 10 ^ 15 < 1 / 10 ^ 14 := by norm_num
    rw [min_eq_left (by linarith)]
    exact ⟨rfl, hlt, hc⟩

/-! ## The cardioid distribution -/

theorem cardPdf_continuous (mu rho : ℝ) : Continuous fun t => cardPdf t mu rho := by
  unfold cardPdf; fun_prop

theorem cardCdf_hasDerivAt (mu rho x : ℝ) :
    HasDerivAt (fun x => cardCdf x mu rho) (cardPdf x mu rho) x := by
  have hpi := pi_pos
  unfold cardCdf cardPdf
  have h1 : HasDerivAt (fun x : ℝ => sin (x - mu)) (cos (x - mu)) x := by
    simpa using ((hasDerivAt_id x).sub_const mu).sin
  have h2 := ((hasDerivAt_id x).add ((h1.add_const (sin mu)).const_mul (2 * rho))).div_const (2 * π)
  refine h2.congr_deriv ?_
  rw [div_div]

theorem cardCdf_zero (mu rho : ℝ) : cardCdf 0 mu rho = 0 := by
  unfold cardCdf; simp

theorem cardCdf_two_pi (mu rho : ℝ) : cardCdf (2 * π) mu rho = 1 := by
  have hpi := pi_pos
  unfold cardCdf
  rw [show 2 * π - mu = -mu + 2 * π by ring, sin_add_two_pi, sin_neg]
  field_simp
  ring

theorem cardCdf_eq_integral (x mu rho : ℝ) :
    cardCdf x mu rho = ∫ t in (0 : ℝ)..x, cardPdf t mu rho := by
  rw [intervalIntegral.integral_eq_sub_of_hasDerivAt (fun t _ => cardCdf_hasDerivAt mu rho t)
    ((cardPdf_continuous mu rho).intervalIntegrable _ _), cardCdf_zero, sub_zero]

theorem cardPdf_bounds {rho : ℝ} (mu x : ℝ) (h0 : 0 ≤ rho) (h1 : rho ≤ 1 / 2) :
    0 ≤ cardPdf x mu rho ∧ cardPdf x mu rho ≤ 1 / π := by
  have hpi := pi_pos
  have hc := neg_one_le_cos (x - mu)
  have hc' := cos_le_one (x - mu)
  unfold cardPdf
  constructor
  · exact div_nonneg (div_nonneg (by nlinarith) (by norm_num)) hpi.le
  · apply div_le_div_of_nonneg_right _ hpi.le
    rw [div_le_one (by norm_num)]; nlinarith

theorem card_isCircularDensity {rho : ℝ} (mu : ℝ) (h0 : 0 ≤ rho) (h1 : rho ≤ 1 / 2) :
    IsCircularDensity fun x => cardPdf x mu rho := by
  refine ⟨fun x _ _ => (cardPdf_bounds mu x h0 h1).1,
    (cardPdf_continuous mu rho).intervalIntegrable _ _, ?_⟩
  rw [← cardCdf_eq_integral, cardCdf_two_pi]

theorem cardCdf_sub {rho : ℝ} (mu : ℝ) (h0 : 0 ≤ rho) (h1 : rho ≤ 1 / 2) {x y : ℝ}
    (hx0 : 0 ≤ x) (hxy : x ≤ y) (hy : y ≤ 2 * π) :
    0 ≤ cardCdf y mu rho - cardCdf x mu rho ∧
      cardCdf y mu rho - cardCdf x mu rho ≤ (y - x) / π := by
  rw [cardCdf_eq_integral, cardCdf_eq_integral]
  have := integral_sub_bounds (cardPdf_continuous mu rho) (M := 1 / π)
    (fun x _ _ => cardPdf_bounds mu x h0 h1) hx0 hxy hy
  exact ⟨this.1, this.2.trans (le_of_eq (by ring))⟩

theorem cardCdf_congr_mu {mu mu' x rho : ℝ} (h : sin mu = sin mu') (h' : cos mu = cos mu') :
    cardCdf x mu rho = cardCdf x mu' rho := by
  unfold cardCdf
  rw [sin_sub, sin_sub, h, h']

theorem cardNewton_mem (mu rho q : ℝ) :
    0 ≤ cardNewton mu rho q ∧ cardNewton mu rho q < 2 * π := by
  have hstep : ∀ it th, 0 ≤ cardNewtonStep mu rho q it th ∧
      cardNewtonStep mu rho q it th < 2 * π := by
    intro it th
    unfold cardNewtonStep
    simp only
    split_ifs <;> exact ⟨pymod_nonneg two_pi_pos _, pymod_lt two_pi_pos _⟩
  unfold cardNewton
  generalize (List.range (if 1 / 4 < rho then 6 else 3)) = l
  have h0 : 0 ≤ pymod (mu + 2 * π * (q - 1 / 2)) (2 * π) ∧
      pymod (mu + 2 * π * (q - 1 / 2)) (2 * π) < 2 * π :=
    ⟨pymod_nonneg two_pi_pos _, pymod_lt two_pi_pos _⟩
  generalize pymod (mu + 2 * π * (q - 1 / 2)) (2 * π) = z at h0
  induction l generalizing z with
  | nil => exact h0
  | cons a l ih => exact ih _ (hstep a z)

/-- The bracket of the bisection keeps the quantile and halves. -/
theorem cardBisect_inv {mu rho q : ℝ} (hq0 : 0 ≤ q) (hq1 : q ≤ 1) (n : ℕ) :
    let b := (cardBisectStep mu rho q)^[n] (0, 2 * π)
    0 ≤ b.1 ∧ b.2 ≤ 2 * π ∧ b.2 - b.1 = 2 * π / 2 ^ n ∧ cardCdf b.1 mu rho ≤ q ∧
      q ≤ cardCdf b.2 mu rho := by
  induction n with
  | zero => simp [cardCdf_zero, cardCdf_two_pi, hq0, hq1]
  | succ n ih =>
    simp only at ih ⊢
    rw [Function.iterate_succ_apply']
    generalize (cardBisectStep mu rho q)^[n] (0, 2 * π) = b at ih ⊢
    obtain ⟨h1, h2, h3, h4, h5⟩ := ih
    have hpos : 0 < 2 * π / 2 ^ n := by positivity
    have hhalf : 2 * π / 2 ^ (n + 1) = (2 * π / 2 ^ n) / 2 := by rw [pow_succ]; field_simp
    unfold cardBisectStep
    simp only
    split_ifs with hc
    · refine ⟨by simp only; linarith, h2, by simp only; rw [hhalf]; linarith, ?_, h5⟩
      unfold cardCdf; exact hc
    · refine ⟨h1, by simp only; linarith, by simp only; rw [hhalf]; linarith, h4, ?_⟩
      unfold cardCdf; exact (not_le.mp hc).le

theorem cardBisect_spec {mu rho q : ℝ} (h0 : 0 ≤ rho) (h1 : rho ≤ 1 / 2) (hq0 : 0 ≤ q)
    (hq1 : q ≤ 1) : 0 ≤ cardBisect mu rho q ∧ cardBisect mu rho q < 2 * π ∧
      |cardCdf (cardBisect mu rho q) mu rho - q| ≤ 1 / 2 ^ 32 := by
  have hpi := pi_pos
  obtain ⟨a, b, c, d, e⟩ := cardBisect_inv (mu := mu) (rho := rho) hq0 hq1 32
  unfold cardBisect
  simp only
  generalize (cardBisectStep mu rho q)^[32] (0, 2 * π) = z at *
  have hw : 0 < 2 * π / 2 ^ 32 := by positivity
  have hs1 := cardCdf_sub mu h0 h1 a (by linarith : z.1 ≤ (z.1 + z.2) / 2) (by linarith)
  have hs2 := cardCdf_sub mu h0 h1 (by linarith : 0 ≤ (z.1 + z.2) / 2)
    (by linarith : (z.1 + z.2) / 2 ≤ z.2) b
  refine ⟨by linarith, by linarith, ?_⟩
  have hb : ((z.1 + z.2) / 2 - z.1) / π = 1 / 2 ^ 32 := by
    rw [show (z.1 + z.2) / 2 - z.1 = (z.2 - z.1) / 2 by ring, c]; field_simp
  have hb' : (z.2 - (z.1 + z.2) / 2) / π = 1 / 2 ^ 32 := by
    rw [show z.2 - (z.1 + z.2) / 2 = (z.2 - z.1) / 2 by ring, c]; field_simp
  rw [hb] at hs1
  rw [hb'] at hs2
  rw [abs_le]
  constructor <;> linarith [hs1.1, hs1.2, hs2.1, hs2.2]

theorem cardSolve_spec {mu rho q : ℝ} (h0 : 0 ≤ rho) (h1 : rho ≤ 1 / 2) (hq0 : 0 ≤ q)
    (hq1 : q < 1) : 0 ≤ cardSolve q mu rho ∧ cardSolve q mu rho ≤ 2 * π ∧
      |cardCdf (cardSolve q mu rho) mu rho - q| ≤ 1 / 2 ^ 32 := by
  have hpi := pi_gt_three
  have hone : isclose q 1 0 (1 / 10 ^ 12) → |1 - q| ≤ 1 / 2 ^ 32 := by
    intro h
    unfold isclose at h
    rw [abs_sub_comm]
    refine le_trans (by simpa using h) (by norm_num)
  unfold cardSolve
  by_cases hc : isclose rho 0 rtolDefault (1 / 10 ^ 15)
  · rw [if_pos hc]
    rw [isclose_zero_iff, abs_of_nonneg h0] at hc
    split_ifs with h
    · exact ⟨two_pi_pos.le, le_rfl, by rw [cardCdf_two_pi]; exact hone h⟩
    · refine ⟨by positivity, by nlinarith, ?_⟩
      have e : cardCdf (2 * π * q) mu rho - q
          = rho * (sin (2 * π * q - mu) + sin mu) / π := by
        unfold cardCdf; field_simp; ring
      rw [e, abs_div, abs_mul, abs_of_nonneg h0, abs_of_pos pi_pos, div_le_iff₀ pi_pos]
      have hb : |sin (2 * π * q - mu) + sin mu| ≤ 2 :=
        (abs_add_le _ _).trans (by linarith [abs_sin_le_one (2 * π * q - mu), abs_sin_le_one mu])
      have hm : rho * |sin (2 * π * q - mu) + sin mu| ≤ 1 / 10 ^ 15 * 2 :=
        mul_le_mul hc hb (abs_nonneg _) (by positivity)
      have : (1 : ℝ) / 10 ^ 15 * 2 ≤ 1 / 2 ^ 32 * 3 := by norm_num
      nlinarith
  · rw [if_neg hc]
    simp only
    by_cases h : isclose q 1 0 (1 / 10 ^ 12)
    · rw [if_pos h]
      exact ⟨two_pi_pos.le, le_rfl, by rw [cardCdf_two_pi]; exact hone h⟩
    · rw [if_neg h]
      split_ifs with hb
      · obtain ⟨a, b, c⟩ := cardBisect_spec (mu := mu) h0 h1 hq0 hq1.le
        rw [pymod_eq_self two_pi_pos a b]
        exact ⟨a, b.le, c⟩
      · obtain ⟨a, b⟩ := cardNewton_mem mu rho q
        rw [pymod_eq_self two_pi_pos a b]
        refine ⟨a, b.le, le_trans ?_ (by norm_num : (10 : ℝ) * (1 / 10 ^ 12) ≤ 1 / 2 ^ 32)⟩
        unfold cardCdf
        exact not_lt.mp hb

end Verif
