import Verif.Model.Distn
import Verif.Lemmas.Circle
import Verif.Spec.Distribution
import Mathlib.MeasureTheory.Integral.IntervalIntegral.FundThmCalculus
import Mathlib.Analysis.Real.Pi.Bounds

/-! # Lemmas about the base class of the distributions -/

set_option autoImplicit false

namespace Verif

open Real Verif.Spec MeasureTheory

theorem computePeriod_two_pi : computePeriod 0 (2 * π) = some (0, 2 * π) := by
  have := two_pi_pos
  unfold computePeriod
  rw [if_neg (by linarith)]; simp

/-- The width of the window around `2π` that `_wrap_angles` moves to `2π`. -/
noncomputable def wrapTol : ℝ := floatEps * (2 * π)

theorem wrapTol_pos : 0 < wrapTol := by
  unfold wrapTol floatEps; have := pi_pos; positivity

theorem wrapTol_lt : wrapTol < 1 / 10 ^ 14 := by
  unfold wrapTol floatEps
  have := pi_lt_d2
  calc 1 / 2 ^ 52 * (2 * π) < 1 / 2 ^ 52 * (2 * 4) := by
        apply mul_lt_mul_of_pos_left _ (by positivity); norm_num at this; linarith
    _ < 1 / 10 ^ 14 := by norm_num

theorem wrap2pi_eq (x : ℝ) :
    wrap2pi x = if |x - 2 * π| ≤ wrapTol then 2 * π else pymod x (2 * π) := by
  have hp := pi_gt_three
  have h1 : max 1 |0 + 2 * π| = 2 * π := by
    rw [zero_add, abs_of_pos (by linarith)]; exact max_eq_right (by linarith)
  unfold wrap2pi
  rw [computePeriod_two_pi]
  unfold wrapAngles isclose wrapTol
  simp only [h1]
  simp only [zero_add, sub_zero, zero_mul, add_zero]

theorem wrap2pi_close {x : ℝ} (h : |x - 2 * π| ≤ wrapTol) : wrap2pi x = 2 * π := by
  rw [wrap2pi_eq, if_pos h]

theorem wrap2pi_far {x : ℝ} (h : wrapTol < |x - 2 * π|) : wrap2pi x = pymod x (2 * π) := by
  rw [wrap2pi_eq, if_neg (not_le.mpr h)]

theorem wrap2pi_mem (x : ℝ) : 0 ≤ wrap2pi x ∧ wrap2pi x ≤ 2 * π := by
  have := two_pi_pos
  rw [wrap2pi_eq]
  split_ifs
  · exact ⟨this.le, le_rfl⟩
  · exact ⟨pymod_nonneg this x, (pymod_lt this x).le⟩

theorem wrap2pi_self {x : ℝ} (h0 : 0 ≤ x) (h1 : x < 2 * π - wrapTol) : wrap2pi x = x := by
  have := two_pi_pos
  have h2 := wrapTol_pos
  rw [wrap2pi_far, pymod_eq_self this h0 (by linarith)]
  rw [abs_sub_comm, abs_of_pos (by linarith)]; linarith

theorem wrap2pi_two_pi : wrap2pi (2 * π) = 2 * π :=
  wrap2pi_close (by simpa using wrapTol_pos.le)

theorem wrap2pi_zero : wrap2pi 0 = 0 := by
  refine wrap2pi_self le_rfl ?_
  have := wrapTol_lt; have := pi_gt_three
  have : (1 : ℝ) / 10 ^ 14 < 1 := by norm_num
  linarith

/-- Away from the window, two angles in the same direction are wrapped alike. -/
theorem wrap2pi_congr {x y : ℝ} (hx : wrapTol < |x - 2 * π|) (hy : wrapTol < |y - 2 * π|)
    (h : SameDir x y) : wrap2pi x = wrap2pi y := by
  rw [wrap2pi_far hx, wrap2pi_far hy]
  exact pymod_congr two_pi_pos h

/-- The wrapped angle is in the direction of the given one, up to the window. -/
theorem wrap2pi_sameDir {x : ℝ} (hx : wrapTol < |x - 2 * π| ∨ x = 2 * π) :
    SameDir (wrap2pi x) x := by
  rcases hx with h | h
  · rw [wrap2pi_far h]; exact pymod_cong x _
  · rw [h, wrap2pi_two_pi]; exact CongMod.refl _ _

/-- From the formulas of a family to the methods seen by the user. -/
theorem isDistribution_of_family {σ : Type} (D : Family σ) (s : σ) (ha : D.argcheck s) (f : ℝ → ℝ)
    (hd : IsCircularDensity f) (hpdf : ∀ x, 0 ≤ x → x ≤ 2 * π → D.pdf x s = f x)
    (hcdf : ∀ x, 0 < x → x ≤ 2 * π - 1 / 10 ^ 14 → D.cdf x s = ∫ t in (0 : ℝ)..x, f t) :
    IsDistribution (fun x => distPdf D x s) (fun x => distCdf D x s) f := by
  have hp := two_pi_pos
  have ht := wrapTol_lt
  have hw : ∀ x, RegularAngle x → wrap2pi x = x := by
    rintro x ⟨h0, h1 | h1⟩
    · exact wrap2pi_self h0 (by linarith)
    · rw [h1]; exact wrap2pi_two_pi
  have hle : ∀ x, RegularAngle x → x ≤ 2 * π := by
    rintro x ⟨h0, h1 | h1⟩
    · have : (0 : ℝ) < 1 / 10 ^ 14 := by positivity
      linarith
    · exact h1.le
  refine ⟨hd, ?_, ?_⟩
  · intro x hx
    unfold distPdf
    rw [hw x hx]
    simp [ha, hx.1, hle x hx, hpdf x hx.1 (hle x hx)]
  · intro x hx
    have hxw := hw x hx
    obtain ⟨h0, h1⟩ := hx
    unfold distCdf
    rw [hxw]
    simp only [ha, not_true_eq_false, if_false]
    rcases h1 with h1 | h1
    · have h10 : (0 : ℝ) < 1 / 10 ^ 14 := by positivity
      rw [if_neg (by linarith)]
      by_cases hx0 : 0 < x
      · rw [if_pos hx0, hcdf x hx0 h1]
      · have : x = 0 := le_antisymm (not_lt.mp hx0) h0
        rw [if_neg hx0, this]; simp
    · rw [if_pos h1.ge, h1, hd.mass]

/-- Inverting the distribution function on the inside, for a density bounded by 1, is inverting it
as seen by the user. -/
theorem invertsCdf_of_family {σ : Type} (D : Family σ) (s : σ) (ha : D.argcheck s) (tol : ℝ)
    (htol : 0 ≤ tol)
    (hppf : ∀ q, 0 < q → q < 1 → 0 ≤ D.ppf q s ∧ D.ppf q s ≤ 2 * π ∧
      |D.cdf (D.ppf q s) s - q| ≤ tol)
    (h0 : D.cdf 0 s = 0) (hlast : ∀ x, 2 * π - wrapTol ≤ x → x ≤ 2 * π →
      |1 - D.cdf x s| ≤ 1 / 10 ^ 14) :
    InvertsCdf (fun q => distPpf D q s) (fun x => distCdf D x s) (tol + 1 / 10 ^ 14) := by
  have hp := two_pi_pos
  have h10 : (0 : ℝ) < 1 / 10 ^ 14 := by positivity
  constructor
  · intro q hq0 hq1
    unfold distPpf
    simp only [ha, not_true_eq_false, if_false]
    by_cases e0 : q = 0
    · subst e0
      refine ⟨0, 0, by simp, le_rfl, hp.le, ?_, by simp; positivity⟩
      unfold distCdf; rw [wrap2pi_zero]; simp [ha, hp.not_ge]
    · by_cases e1 : q = 1
      · subst e1
        refine ⟨2 * π, 1, by simp, hp.le, le_rfl, ?_, by simp; positivity⟩
        unfold distCdf; rw [wrap2pi_two_pi]; simp [ha]
      · have hq0' : 0 < q := lt_of_le_of_ne hq0 (Ne.symm e0)
        have hq1' : q < 1 := lt_of_le_of_ne hq1 e1
        rw [if_neg e0, if_neg e1, if_pos ⟨hq0', hq1'⟩]
        obtain ⟨x0, x1, hx⟩ := hppf q hq0' hq1'
        generalize D.ppf q s = x at *
        by_cases hc : x < 2 * π - wrapTol
        · have hw : wrap2pi x = x := wrap2pi_self x0 hc
          refine ⟨x, D.cdf x s, rfl, x0, x1, ?_, by linarith⟩
          unfold distCdf
          rw [hw]
          have := wrapTol_pos
          simp only [ha, not_true_eq_false, if_false]
          rw [if_neg (by linarith)]
          by_cases hx0 : 0 < x
          · rw [if_pos hx0]
          · have : x = 0 := le_antisymm (not_lt.mp hx0) x0
            rw [if_neg hx0, this, h0]
        · have hc' := not_lt.mp hc
          have hw : wrap2pi x = 2 * π := wrap2pi_close (by
            rw [abs_sub_comm, abs_of_nonneg (by linarith)]; linarith)
          refine ⟨x, 1, rfl, x0, x1, ?_, ?_⟩
          · unfold distCdf; rw [hw]; simp [ha]
          · have h1 := hlast x hc' x1
            have : (1 : ℝ) - q = (1 - D.cdf x s) + (D.cdf x s - q) := by ring
            rw [this]
            exact (abs_add_le _ _).trans (by linarith)
  · intro q hq
    unfold distPpf
    simp only [ha, not_true_eq_false, if_false]
    rcases hq with h | h
    · rw [if_neg (by linarith), if_neg (by linarith), if_neg (by intro h'; linarith [h'.1])]
    · rw [if_neg (by linarith), if_neg (by linarith), if_neg (by intro h'; linarith [h'.2])]

end Verif
