import Verif.Model.Range
import Verif.Lemmas.Median
import Mathlib.Analysis.SpecialFunctions.Integrals.Basic
import Mathlib.MeasureTheory.Integral.IntervalIntegral.Periodic
import Mathlib.Analysis.Real.Pi.Bounds

/-!
# C29: kernel density estimate
-/

set_option autoImplicit false

namespace Verif.Props

open Verif Verif.Spec Real

/-- The estimate is non-negative. -/
theorem C29_kde_nonneg (alpha : List ℝ) (h x : ℝ) (hh : 0 < h) : 0 ≤ kdeAt alpha h x := by
  unfold kdeAt
  simp only
  apply div_nonneg
  · apply mul_nonneg (by norm_num)
    apply List.sum_nonneg
    intro y hy
    obtain ⟨a, -, rfl⟩ := List.mem_map.1 hy
    positivity
  · positivity

/-- Closing the circle: for data in `[0, 2π]` the estimates at 0 and at 2π agree. -/
theorem C29_kde_periodic (alpha : List ℝ) (h : ℝ) (ha : ∀ a ∈ alpha, 0 ≤ a ∧ a ≤ 2 * π) :
    kdeAt alpha h 0 = kdeAt alpha h (2 * π) := by
  unfold kdeAt
  simp only
  congr 2
  congr 1
  apply List.map_congr_left
  intro a hm
  obtain ⟨h0, h1⟩ := ha a hm
  rw [zero_sub, abs_neg, abs_of_nonneg h0, abs_of_nonneg (by linarith : 0 ≤ 2 * π - a)]
  rw [show 2 * π - (2 * π - a) = a by ring, min_comm a]

/-- For data and evaluation point in `[0, 2π]` the estimate is the quartic-kernel average of the
arc-length distances, and observations at arc distance `≥ h` contribute nothing. -/
theorem C29_kde_is_kernel_average (alpha : List ℝ) (h x : ℝ) (hh : 0 < h)
    (ha : ∀ a ∈ alpha, 0 ≤ a ∧ a ≤ 2 * π) (hx : 0 ≤ x ∧ x ≤ 2 * π) (dist : ℝ → ℝ)
    (hd : ∀ a ∈ alpha, IsArcDist (dist a) x a) :
    kdeAt alpha h x = 15 / 16 / (alpha.length * h) *
      (alpha.map fun a => if dist a < h then (1 - (dist a / h) ^ 2) ^ 2 else 0).sum := by
  unfold kdeAt
  simp only
  have : (alpha.map fun a => (1 - min (min |x - a| (2 * π - |x - a|)) h ^ 2 / h ^ 2) ^ 2) =
      alpha.map fun a => if dist a < h then (1 - (dist a / h) ^ 2) ^ 2 else 0 := by
    apply List.map_congr_left
    intro a hm
    obtain ⟨h0, h1⟩ := ha a hm
    have hle : |x - a| ≤ 2 * π := by rw [abs_le]; constructor <;> linarith
    have e : min |x - a| (2 * π - |x - a|) = dist a := by
      apply isArcDist_unique _ (hd a hm)
      rcases le_total |x - a| π with hp | hp
      · rw [min_eq_left (by linarith)]
        exact isArcDist_of hp (CongMod.refl _ _)
      · rw [min_eq_right (by linarith)]
        rcases abs_cases (x - a) with ⟨hc, -⟩ | ⟨hc, -⟩
        · have := isArcDist_of (e := x - a - 2 * π) (a := x) (b := a)
            (by rw [abs_le]; constructor <;> linarith [pi_pos]) ⟨-1, by push_cast; ring⟩
          rw [hc]
          rwa [abs_of_nonpos (by linarith), neg_sub] at this
        · have := isArcDist_of (e := x - a + 2 * π) (a := x) (b := a)
            (by rw [abs_le]; constructor <;> linarith [pi_pos]) ⟨1, by push_cast; ring⟩
          rw [hc]
          rw [abs_of_nonneg (by linarith)] at this
          convert this using 1; ring
    rw [e]
    split_ifs with hc
    · rw [min_eq_left hc.le, div_pow]
    · push Not at hc
      rw [min_eq_right hc]
      have : h ^ 2 ≠ 0 := by positivity
      rw [div_self this]; norm_num
  rw [this]
  norm_num
  ring

/-- Kernel as a function of the difference. -/
private noncomputable def ker (h u : ℝ) : ℝ :=
  (1 - min (min |u| (2 * π - |u|)) h ^ 2 / h ^ 2) ^ 2

private lemma ker_cont (h : ℝ) : Continuous (ker h) := by
  unfold ker
  fun_prop

private lemma ker_shift {h u : ℝ} (h0 : -(2 * π) ≤ u) (h1 : u ≤ 0) : ker h (u + 2 * π) = ker h u := by
  unfold ker
  rw [abs_of_nonneg (by linarith : 0 ≤ u + 2 * π), abs_of_nonpos h1,
    show 2 * π - (u + 2 * π) = -u by ring, show 2 * π - -u = u + 2 * π by ring, min_comm (u + 2 * π)]

private lemma ker_even (h u : ℝ) : ker h (-u) = ker h u := by simp [ker]

open MeasureTheory intervalIntegral in
private lemma ker_half {h : ℝ} (hh : 0 < h) (hp : h ≤ π) : ∫ u in (0 : ℝ)..π, ker h u = 8 * h / 15 := by
  have hi : ∀ a b, IntervalIntegrable (ker h) volume a b :=
    fun a b => (ker_cont h).intervalIntegrable a b
  rw [← integral_add_adjacent_intervals (hi 0 h) (hi h π)]
  have e1 : ∫ u in (0 : ℝ)..h, ker h u = ∫ u in (0 : ℝ)..h, (1 - 2 / h ^ 2 * u ^ 2 + 1 / h ^ 4 * u ^ 4) := by
    apply integral_congr
    intro u hu
    rw [Set.uIcc_of_le hh.le] at hu
    simp only [ker]
    rw [abs_of_nonneg hu.1, min_eq_left (by linarith [hu.2] : u ≤ 2 * π - u), min_eq_left hu.2]
    field_simp
    ring
  have e2 : ∫ u in h..π, ker h u = ∫ u in h..π, (0 : ℝ) := by
    apply integral_congr
    intro u hu
    rw [Set.uIcc_of_le hp] at hu
    simp only [ker]
    rw [abs_of_nonneg (hh.le.trans hu.1), min_eq_left (by linarith [hu.2] : u ≤ 2 * π - u),
      min_eq_right hu.1, div_self (by positivity)]
    norm_num
  rw [e1, e2, intervalIntegral.integral_zero, add_zero]
  rw [intervalIntegral.integral_add (by apply Continuous.intervalIntegrable; fun_prop)
    (by apply Continuous.intervalIntegrable; fun_prop),
    intervalIntegral.integral_sub (by apply Continuous.intervalIntegrable; fun_prop)
    (by apply Continuous.intervalIntegrable; fun_prop),
    intervalIntegral.integral_const_mul, intervalIntegral.integral_const_mul, integral_pow, integral_pow]
  simp
  field_simp
  norm_num

open MeasureTheory intervalIntegral in
private lemma ker_full {h a : ℝ} (hh : 0 < h) (hp : h ≤ π) (h0 : 0 ≤ a) (h1 : a ≤ 2 * π) :
    ∫ x in (0 : ℝ)..(2 * π), ker h (x - a) = 16 * h / 15 := by
  have hi : ∀ a b, IntervalIntegrable (ker h) volume a b :=
    fun a b => (ker_cont h).intervalIntegrable a b
  rw [integral_comp_sub_right (ker h) a]
  rw [show (0 : ℝ) - a = -a by ring]
  rw [← integral_add_adjacent_intervals (hi (-a) 0) (hi 0 (2 * π - a))]
  have e1 : ∫ u in (-a)..0, ker h u = ∫ u in (2 * π - a)..(2 * π), ker h u := by
    have : ∫ u in (-a)..0, ker h u = ∫ u in (-a)..0, ker h (u + 2 * π) := by
      apply integral_congr
      intro u hu
      rw [Set.uIcc_of_le (by linarith)] at hu
      exact (ker_shift (by linarith [hu.1]) hu.2).symm
    rw [this, integral_comp_add_right (ker h) (2 * π)]
    congr 1 <;> ring
  rw [e1, add_comm, integral_add_adjacent_intervals (hi 0 _) (hi _ _)]
  rw [← integral_add_adjacent_intervals (hi 0 π) (hi π (2 * π)), ker_half hh hp]
  have e2 : ∫ u in π..(2 * π), ker h u = ∫ u in (0 : ℝ)..π, ker h u := by
    have hpi := pi_pos
    have e3 : ∫ u in (0 : ℝ)..π, ker h u = ∫ u in (0 : ℝ)..π, ker h (2 * π - u) := by
      apply integral_congr
      intro u hu
      rw [Set.uIcc_of_le hpi.le] at hu
      have := ker_shift (h := h) (u := -u) (by linarith [hu.2]) (by linarith [hu.1])
      rw [ker_even] at this
      simp only
      rw [← this]; congr 1; ring
    rw [e3, integral_comp_sub_left (ker h) (2 * π)]
    congr 1 <;> ring
  rw [e2, ker_half hh hp]
  ring

open MeasureTheory intervalIntegral in
/-- The estimate is a probability density on the circle: for at least one observation, data in
`[0, 2π]` and a bandwidth of at most π, its integral over one turn is 1. -/
theorem C29_kde_mass (alpha : List ℝ) (h : ℝ) (hne : alpha ≠ []) (hh : 0 < h) (hp : h ≤ π)
    (ha : ∀ a ∈ alpha, 0 ≤ a ∧ a ≤ 2 * π) : ∫ x in (0 : ℝ)..(2 * π), kdeAt alpha h x = 1 := by
  have hsum : ∀ l : List ℝ, (∀ a ∈ l, 0 ≤ a ∧ a ≤ 2 * π) →
      ∫ x in (0 : ℝ)..(2 * π), (l.map fun a => ker h (x - a)).sum = l.length * (16 * h / 15) := by
    intro l
    induction l with
    | nil => simp
    | cons a l ih =>
      intro hl
      simp only [List.map_cons, List.sum_cons, List.length_cons]
      have hc : Continuous fun x => (l.map fun a => ker h (x - a)).sum := by
        clear ih hl
        induction l with
        | nil => simpa using continuous_const
        | cons b l ih =>
          simp only [List.map_cons, List.sum_cons]
          exact ((ker_cont h).comp (continuous_id.sub continuous_const)).add ih
      have hca : Continuous fun x => ker h (x - a) :=
        (ker_cont h).comp (continuous_id.sub continuous_const)
      rw [intervalIntegral.integral_add (hca.intervalIntegrable _ _) (hc.intervalIntegrable _ _)]
      rw [ih (fun b hb => hl b (by simp [hb]))]
      have := hl a (by simp)
      rw [ker_full hh hp this.1 this.2]
      push_cast; ring
  have hk : ∀ x, kdeAt alpha h x = 0.9375 / (alpha.length * h) *
      (alpha.map fun a => ker h (x - a)).sum := by
    intro x
    unfold kdeAt ker
    simp only
    ring
  simp only [hk]
  rw [intervalIntegral.integral_const_mul, hsum alpha ha]
  have hn : (alpha.length : ℝ) ≠ 0 := by
    have := List.length_pos_iff.2 hne
    positivity
  field_simp
  norm_num

/-- The plotted curve: 100 points, non-negative for a non-negative radius, the first and the last
value equal for data in `[0, 2π]`. -/
theorem C29_kde_curve (alpha : List ℝ) (h radius : ℝ) (hh : 0 < h) (hr : 0 ≤ radius) :
    (kde alpha h radius).1.length = 100 ∧ (kde alpha h radius).2.length = 100 ∧
    (∀ y ∈ (kde alpha h radius).2, 0 ≤ y) ∧
    ((∀ a ∈ alpha, 0 ≤ a ∧ a ≤ 2 * π) →
      (kde alpha h radius).2[0]? = (kde alpha h radius).2[99]?) := by
  refine ⟨by simp [kde, kdeGrid], by simp [kde, kdeGrid], ?_, ?_⟩
  · intro y hy
    obtain ⟨x, -, rfl⟩ := List.mem_map.1 hy
    have h1 := C29_kde_nonneg alpha h x hh
    have h2 : 1 ≤ sqrt (1 + π * kdeAt alpha h x) := by
      rw [one_le_sqrt]
      have := mul_nonneg pi_pos.le h1
      linarith
    nlinarith
  · intro ha
    have h0 : kdeGrid[0]? = some 0 := by simp [kdeGrid]
    have h99 : kdeGrid[99]? = some (2 * π) := by
      simp only [kdeGrid, List.getElem?_map, List.getElem?_range (show 99 < 100 by norm_num),
        Option.map_some]
      norm_num
      ring
    simp only [kde, List.getElem?_map, h0, h99, Option.map_some]
    rw [C29_kde_periodic alpha h ha]

/-- Data and bandwidth meeting the hypotheses. -/
example : ([0, 1, 2] : List ℝ) ≠ [] ∧ (0 : ℝ) < 1 ∧ (1 : ℝ) ≤ π ∧
    ∀ a ∈ ([0, 1, 2] : List ℝ), 0 ≤ a ∧ a ≤ 2 * π := by
  have := pi_gt_three
  refine ⟨by simp, by norm_num, by linarith, ?_⟩
  intro a ha
  simp only [List.mem_cons, List.not_mem_nil, or_false] at ha
  rcases ha with rfl | rfl | rfl <;> constructor <;> linarith

end Verif.Props
