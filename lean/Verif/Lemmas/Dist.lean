import Verif.Model.Dist
import Verif.Lemmas.Descriptive

/-! Helper lemmas on arc-length distance. -/

set_option autoImplicit false

namespace Verif

open Real Spec

lemma isArcDist_of {e a b : ℝ} (h : |e| ≤ π) (hc : SameDir e (a - b)) : IsArcDist |e| a b := by
  obtain ⟨k, hk⟩ := hc
  refine ⟨⟨k, by rw [hk]⟩, fun j => ?_⟩
  have hpi := pi_pos
  have : a - b + (j : ℝ) * (2 * π) = e + ((j - k : ℤ) : ℝ) * (2 * π) := by
    rw [hk]; push_cast; ring
  rw [this]
  rcases eq_or_ne (j - k) 0 with h0 | h0
  · rw [h0]; simp
  · have h1 : (1 : ℝ) ≤ |((j - k : ℤ) : ℝ)| := by exact_mod_cast Int.one_le_abs h0
    have h2 : 2 * π ≤ |((j - k : ℤ) : ℝ) * (2 * π)| := by
      rw [abs_mul, abs_of_pos two_pi_pos]; nlinarith
    have h3 := abs_sub_abs_le_abs_sub (((j - k : ℤ) : ℝ) * (2 * π)) (-e)
    rw [abs_neg, sub_neg_eq_add, add_comm (((j - k : ℤ) : ℝ) * (2 * π)) e] at h3
    linarith

lemma isArcDist_unique {d d' a b : ℝ} (h : IsArcDist d a b) (h' : IsArcDist d' a b) : d = d' := by
  obtain ⟨⟨k, hk⟩, hl⟩ := h
  obtain ⟨⟨k', hk'⟩, hl'⟩ := h'
  apply le_antisymm
  · rw [hk']; exact hl _
  · rw [hk]; exact hl' _

lemma isArcDist_congr {d a a' b b' : ℝ} (ha : SameDir a a') (hb : SameDir b b') :
    IsArcDist d a b ↔ IsArcDist d a' b' := by
  have key : ∀ {a a' b b' : ℝ}, SameDir a a' → SameDir b b' → IsArcDist d a b → IsArcDist d a' b' := by
    rintro a a' b b' ⟨k, rfl⟩ ⟨l, rfl⟩ ⟨⟨j, hj⟩, hm⟩
    refine ⟨⟨j + k - l, by rw [hj]; congr 1; push_cast; ring⟩, fun i => ?_⟩
    refine (hm (i - k + l)).trans (le_of_eq ?_)
    congr 1; push_cast; ring
  exact ⟨key ha hb, key ha.symm hb.symm⟩

lemma center_eq (x y : ℝ) :
    Complex.exp (Complex.I * x) / Complex.exp (Complex.I * y)
      = Complex.exp (((x - y : ℝ) : ℂ) * Complex.I) := by
  rw [← Complex.exp_sub]; congr 1; push_cast; ring

lemma center_sameDir (x y : ℝ) :
    SameDir (Complex.arg (Complex.exp (Complex.I * x) / Complex.exp (Complex.I * y))) (x - y) := by
  rw [center_eq]
  exact arg_sameDir_of_polar one_pos (by simp)

end Verif
