import Verif.Model.Interval
import Verif.Lemmas.Descriptive

/-!
# C87: the studentising matrix of the bootstrap
-/

set_option autoImplicit false

namespace Verif.Props

open Verif Verif.Spec Real

/-- `(v11, v22, v12)` is a symmetric square root of the covariance matrix `(u11, u22, u12)`. -/
def IsSqrtOf (v u : ℝ × ℝ × ℝ) : Prop :=
  v.1 ^ 2 + v.2.2 ^ 2 = u.1 ∧ v.2.2 ^ 2 + v.2.1 ^ 2 = u.2.1 ∧ v.2.2 * (v.1 + v.2.1) = u.2.2

private lemma rot_eigen (b t1 t2 : ℝ) :
    (rotMatrix b t1 t2).1 * b + (rotMatrix b t1 t2).2.2 = b * t1 ∧
    (rotMatrix b t1 t2).2.2 * b + (rotMatrix b t1 t2).2.1 = t1 := by
  have h : (1 + b ^ 2) ≠ 0 := by positivity
  unfold rotMatrix
  constructor <;> field_simp <;> ring

/-- A matrix of the form the code builds can only be a square root of the covariance matrix if
`(β, 1)` is an eigenvector, i.e. `β² u12 - β (u11 - u22) - u12 = 0`. -/
private lemma quad_of_sqrt {b t1 t2 u11 u22 u12 : ℝ}
    (h : IsSqrtOf (rotMatrix b t1 t2) (u11, u22, u12)) :
    b ^ 2 * u12 - b * (u11 - u22) - u12 = 0 := by
  obtain ⟨e1, e2⟩ := rot_eigen b t1 t2
  obtain ⟨h1, h2, h3⟩ := h
  simp only at h1 h2 h3
  set v11 := (rotMatrix b t1 t2).1
  set v22 := (rotMatrix b t1 t2).2.1
  set v12 := (rotMatrix b t1 t2).2.2
  have k1 : u11 * b + u12 = t1 ^ 2 * b := by
    rw [← h1, ← h3]
    calc _ = v11 * (v11 * b + v12) + v12 * (v12 * b + v22) := by ring
      _ = v11 * (b * t1) + v12 * t1 := by rw [e1, e2]
      _ = t1 * (v11 * b + v12) := by ring
      _ = _ := by rw [e1]; ring
  have k2 : u12 * b + u22 = t1 ^ 2 := by
    rw [← h2, ← h3]
    calc _ = v12 * (v11 * b + v12) + v22 * (v12 * b + v22) := by ring
      _ = v12 * (b * t1) + v22 * t1 := by rw [e1, e2]
      _ = t1 * (v12 * b + v22) := by ring
      _ = _ := by rw [e2]; ring
  rw [← k2] at k1
  linarith

/-- Whenever cosines and sines of the sample are correlated (beyond the 1e-8 tolerance), the matrix
used to studentise bootstrap replicates is *not* a square root of their covariance matrix: the `+ 1`
of the published discriminant is inside the denominator. -/
theorem C87_v0_not_sqrt (u11 u22 u12 : ℝ) (h : 1 / 10 ^ 8 < |u12|) :
    ¬ IsSqrtOf (v0Matrix u11 u22 u12) (u11, u22, u12) := by
  intro hs
  have hq := quad_of_sqrt hs
  have h0 : u12 ≠ 0 := by
    rintro rfl
    norm_num at h
  have hb : betaParam u11 u22 u12 =
      (u11 - u22) / (2 * u12) - sqrt ((u11 - u22) ^ 2 / (4 * u12 ^ 2 + 1)) := by
    unfold betaParam
    rw [if_neg]
    simpa [isclose, atolDefault] using h
  set D := (u11 - u22) / (2 * u12) with hD
  set b := betaParam u11 u22 u12
  have hu : u11 - u22 = 2 * u12 * D := by rw [hD]; field_simp
  have hsq : (b - D) ^ 2 = (u11 - u22) ^ 2 / (4 * u12 ^ 2 + 1) := by
    rw [hb]
    have : D - sqrt ((u11 - u22) ^ 2 / (4 * u12 ^ 2 + 1)) - D
        = - sqrt ((u11 - u22) ^ 2 / (4 * u12 ^ 2 + 1)) := by ring
    rw [this, neg_sq, sq_sqrt (by positivity)]
  have hle : (u11 - u22) ^ 2 / (4 * u12 ^ 2 + 1) ≤ D ^ 2 := by
    rw [div_le_iff₀ (by positivity), hu]
    nlinarith [sq_nonneg D]
  have hq2 : (b - D) ^ 2 = D ^ 2 + 1 := by
    have : u12 * (b ^ 2 - 2 * D * b - 1) = 0 := by rw [hu] at hq; linarith
    have := (mul_eq_zero.1 this).resolve_left h0
    linarith
  linarith

/-- With uncorrelated cosines and sines the matrix is a square root of the covariance matrix. -/
theorem C87_v0_sqrt_of_uncorrelated (u11 u22 : ℝ) (h1 : 0 ≤ u11) (h2 : 0 ≤ u22) :
    IsSqrtOf (v0Matrix u11 u22 0) (u11, u22, 0) := by
  have hb : betaParam u11 u22 0 = 0 := by
    unfold betaParam
    rw [if_pos]
    simp [isclose, atolDefault]
  unfold v0Matrix
  rw [hb]
  simp [rotMatrix, IsSqrtOf, h1, h2]

/-- With the published discriminant `(u11 - u22)²/(4 u12²) + 1` the same construction is a square
root of every covariance matrix with `u12 ≠ 0`, so the misplaced parenthesis is the only fault. -/
theorem C87_published_formula_sqrt (u11 u22 u12 b t1 t2 : ℝ) (h0 : u12 ≠ 0)
    (hb : b = (u11 - u22) / (2 * u12) - sqrt ((u11 - u22) ^ 2 / (4 * u12 ^ 2) + 1))
    (ht1 : t1 = sqrt (b ^ 2 * u11 + 2 * b * u12 + u22) / sqrt (1 + b ^ 2))
    (ht2 : t2 = sqrt (u11 - 2 * b * u12 + b ^ 2 * u22) / sqrt (1 + b ^ 2))
    (hpsd : ∀ x y : ℝ, 0 ≤ x ^ 2 * u11 + 2 * (x * y) * u12 + y ^ 2 * u22) :
    IsSqrtOf (rotMatrix b t1 t2) (u11, u22, u12) := by
  have hq : b ^ 2 * u12 - b * (u11 - u22) - u12 = 0 := by
    set D := (u11 - u22) / (2 * u12) with hD
    have hu : u11 - u22 = 2 * u12 * D := by rw [hD]; field_simp
    have hsq : (b - D) ^ 2 = D ^ 2 + 1 := by
      rw [hb]
      have e : (u11 - u22) ^ 2 / (4 * u12 ^ 2) = D ^ 2 := by rw [hD]; field_simp; ring
      rw [e, show D - sqrt (D ^ 2 + 1) - D = - sqrt (D ^ 2 + 1) by ring, neg_sq,
        sq_sqrt (by positivity)]
    rw [hu]
    have : u12 * (b ^ 2 - 2 * D * b - 1) = 0 := by
      rw [show b ^ 2 - 2 * D * b - 1 = 0 by nlinarith, mul_zero]
    linarith
  have hpos : 0 < 1 + b ^ 2 := by positivity
  have e1 : t1 ^ 2 = (b ^ 2 * u11 + 2 * b * u12 + u22) / (1 + b ^ 2) := by
    have := hpsd b 1
    rw [ht1, div_pow, sq_sqrt hpos.le, sq_sqrt (by linarith)]
  have e2 : t2 ^ 2 = (u11 - 2 * b * u12 + b ^ 2 * u22) / (1 + b ^ 2) := by
    have := hpsd 1 (-b)
    rw [ht2, div_pow, sq_sqrt hpos.le, sq_sqrt (by nlinarith)]
  have hne := hpos.ne'
  have f1 : (b ^ 2 * t1 ^ 2 + t2 ^ 2) / (1 + b ^ 2) = u11 := by
    rw [e1, e2]; field_simp; linear_combination (2 * b) * hq
  have f2 : (t1 ^ 2 + b ^ 2 * t2 ^ 2) / (1 + b ^ 2) = u22 := by
    rw [e1, e2]; field_simp; linear_combination (-2 * b) * hq
  have f3 : b * (t1 ^ 2 - t2 ^ 2) / (1 + b ^ 2) = u12 := by
    rw [e1, e2]; field_simp; linear_combination (b ^ 2 - 1) * (-hq)
  refine ⟨?_, ?_, ?_⟩ <;> simp only [rotMatrix]
  · rw [← f1]; field_simp; ring
  · rw [← f2]; field_simp; ring
  · rw [← f3]; field_simp; ring

/-- The hypothesis of `C87_v0_not_sqrt` is met by the two observations 0° and 90°: the covariance of
cosine and sine is -1/4. -/
example : (covTrig [0, π / 2]).2.2.2.2 = -1 / 4 ∧ 1 / 10 ^ 8 < |(-1 / 4 : ℝ)| := by
  constructor
  · simp [covTrig]; norm_num
  · rw [abs_of_neg (by norm_num)]; norm_num

end Verif.Props
