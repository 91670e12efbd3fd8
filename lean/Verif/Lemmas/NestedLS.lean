import Verif.Lemmas.LeastSquares
import Mathlib.LinearAlgebra.Matrix.NonsingularInverse
import Mathlib.LinearAlgebra.Matrix.ToLinearEquiv

/-! # Comparing two nested linear models -/

namespace Verif

open Matrix

set_option autoImplicit false

variable {n : ℕ} {C D : Type} [Fintype C] [Fintype D] [DecidableEq C] [DecidableEq D]
  {X : Matrix (Fin n) C ℝ} {W : Matrix (Fin n) D ℝ} {y : Fin n → ℝ}

lemma dot_self_eq_zero' {k : ℕ} {v : Fin k → ℝ} (h : v ⬝ᵥ v = 0) : v = 0 := by
  unfold dotProduct at h
  funext i
  have := (Finset.sum_eq_zero_iff_of_nonneg fun i _ => mul_self_nonneg (v i)).1 h i (Finset.mem_univ i)
  simpa using this

lemma isUnit_gram (h : ∀ b, X *ᵥ b = 0 → b = 0) : IsUnit (Xᵀ * X).det := by
  rw [isUnit_iff_ne_zero]
  intro h0
  obtain ⟨v, hv, h1⟩ := Matrix.exists_mulVec_eq_zero_iff.2 h0
  refine hv (h v (dot_self_eq_zero' ?_))
  rw [Matrix.dotProduct_mulVec, ← Matrix.mulVec_transpose, Matrix.mulVec_mulVec, h1, zero_dotProduct]

/-- Facts on the projection on the column space of `X`. -/
lemma proj_facts (hX : IsUnit (Xᵀ * X).det) :
    Xᵀ * (1 - X * (Xᵀ * X)⁻¹ * Xᵀ) = 0 ∧ (1 - X * (Xᵀ * X)⁻¹ * Xᵀ)ᵀ = 1 - X * (Xᵀ * X)⁻¹ * Xᵀ := by
  constructor
  · rw [Matrix.mul_sub, Matrix.mul_one, ← Matrix.mul_assoc, ← Matrix.mul_assoc, Matrix.mul_nonsing_inv _ hX,
      Matrix.one_mul, sub_self]
  · rw [Matrix.transpose_sub, Matrix.transpose_one, Matrix.transpose_mul, Matrix.transpose_mul,
      Matrix.transpose_transpose, Matrix.transpose_nonsing_inv, Matrix.transpose_mul, Matrix.transpose_transpose,
      Matrix.mul_assoc]

lemma isUnit_schur (h : ∀ b w, X *ᵥ b + W *ᵥ w = 0 → b = 0 ∧ w = 0) :
    IsUnit (Wᵀ * (1 - X * (Xᵀ * X)⁻¹ * Xᵀ) * W).det := by
  have hX : IsUnit (Xᵀ * X).det := isUnit_gram fun b hb => (h b 0 (by simp [hb])).1
  obtain ⟨h1, h2⟩ := proj_facts hX
  rw [isUnit_iff_ne_zero]
  intro h0
  obtain ⟨v, hv, h3⟩ := Matrix.exists_mulVec_eq_zero_iff.2 h0
  set P := 1 - X * (Xᵀ * X)⁻¹ * Xᵀ with hP
  have hPP : P * P = P := by
    have : P * P = P - X * (Xᵀ * X)⁻¹ * (Xᵀ * P) := by
      rw [← Matrix.mul_assoc]
      conv_lhs => lhs; rw [hP]
      rw [Matrix.sub_mul, Matrix.one_mul]
    rw [this, h1, Matrix.mul_zero, sub_zero]
  have h4 : (P * W) *ᵥ v = 0 := by
    refine dot_self_eq_zero' ?_
    rw [Matrix.dotProduct_mulVec, ← Matrix.mulVec_transpose, Matrix.mulVec_mulVec, Matrix.transpose_mul, h2]
    have : Wᵀ * P * (P * W) = Wᵀ * P * W := by
      rw [Matrix.mul_assoc, ← Matrix.mul_assoc P P W, hPP, Matrix.mul_assoc]
    rw [this, h3, zero_dotProduct]
  have h5 : X *ᵥ (-(((Xᵀ * X)⁻¹ * Xᵀ * W) *ᵥ v)) + W *ᵥ v = 0 := by
    rw [Matrix.mulVec_neg, Matrix.mulVec_mulVec, ← h4, hP, Matrix.sub_mul, Matrix.one_mul, Matrix.sub_mulVec]
    simp only [Matrix.mul_assoc]
    abel
  exact hv (h _ _ h5).2

/-- The quadratic form of the test is the reduction of the residual sum of squares. -/
theorem nested_rss (h : ∀ b w, X *ᵥ b + W *ᵥ w = 0 → b = 0 ∧ w = 0) {b : C → ℝ} (hb : IsLeastSquares X y b) :
    IsLeast {s | ∃ (b' : C → ℝ) (w : D → ℝ), s = ∑ i, (y i - ((X *ᵥ b') i + (W *ᵥ w) i)) ^ 2}
      (rss X y b - (y - X *ᵥ b) ⬝ᵥ
        (W * (Wᵀ * (1 - X * (Xᵀ * X)⁻¹ * Xᵀ) * W)⁻¹ * Wᵀ) *ᵥ (y - X *ᵥ b)) := by
  have hX : IsUnit (Xᵀ * X).det := isUnit_gram fun b hb => (h b 0 (by simp [hb])).1
  have hH := isUnit_schur h
  obtain ⟨h1, h2⟩ := proj_facts hX
  set P := 1 - X * (Xᵀ * X)⁻¹ * Xᵀ with hP
  set H := Wᵀ * P * W with hHd
  set r := y - X *ᵥ b with hr
  set v := H⁻¹ *ᵥ (Wᵀ *ᵥ r) with hv
  set bo := b - ((Xᵀ * X)⁻¹ * Xᵀ * W) *ᵥ v with hbo
  set e := y - (X *ᵥ bo + W *ᵥ v) with he
  have hXr : Xᵀ *ᵥ r = 0 := by
    funext c
    have := hb.ortho (Pi.single c 1)
    rw [Matrix.mulVec_single_one] at this
    simp only [Matrix.mulVec, dotProduct, Matrix.transpose_apply, Pi.zero_apply, hr, Pi.sub_apply]
    rw [← this]
    refine Finset.sum_congr rfl fun i _ => ?_
    simp only [Matrix.col_apply, Matrix.mulVec, dotProduct]
    ring
  have he2 : e = r - (P * W) *ᵥ v := by
    rw [he, hr, hbo, hP, Matrix.mulVec_sub, Matrix.sub_mul, Matrix.one_mul, Matrix.sub_mulVec,
      Matrix.mulVec_mulVec]
    simp only [Matrix.mul_assoc]
    abel
  have hXe : Xᵀ *ᵥ e = 0 := by
    rw [he2, Matrix.mulVec_sub, hXr, Matrix.mulVec_mulVec, ← Matrix.mul_assoc, h1, Matrix.zero_mul,
      Matrix.zero_mulVec, sub_zero]
  have hWe : Wᵀ *ᵥ e = 0 := by
    rw [he2, Matrix.mulVec_sub, Matrix.mulVec_mulVec, ← Matrix.mul_assoc, ← hHd, hv, Matrix.mulVec_mulVec,
      Matrix.mul_nonsing_inv _ hH, Matrix.one_mulVec, sub_self]
  clear_value e bo v
  have hort : ∀ (d : C → ℝ) (u : D → ℝ), e ⬝ᵥ (X *ᵥ d + W *ᵥ u) = 0 := by
    intro d u
    rw [dotProduct_add, Matrix.dotProduct_mulVec, Matrix.dotProduct_mulVec, ← Matrix.mulVec_transpose,
      ← Matrix.mulVec_transpose, hXe, hWe, zero_dotProduct, zero_dotProduct, add_zero]
  have hPr : P *ᵥ r = r := by
    rw [hP, Matrix.sub_mulVec, Matrix.one_mulVec, ← Matrix.mulVec_mulVec, hXr, Matrix.mulVec_zero, sub_zero]
  have hee : e ⬝ᵥ e = rss X y b - r ⬝ᵥ (W * H⁻¹ * Wᵀ) *ᵥ r := by
    have he3 : e = r - (X *ᵥ (bo - b) + W *ᵥ v) := by
      rw [he, hr, Matrix.mulVec_sub]; abel
    have h6 : e ⬝ᵥ e = e ⬝ᵥ r := by
      have : e ⬝ᵥ e = e ⬝ᵥ (r - (X *ᵥ (bo - b) + W *ᵥ v)) := by rw [← he3]
      rw [this, dotProduct_sub, hort, sub_zero]
    rw [h6, he2, sub_dotProduct]
    congr 1
    · unfold rss dotProduct
      exact Finset.sum_congr rfl fun i _ => by rw [hr]; simp only [Pi.sub_apply]; ring
    · have h8 : (P * W) *ᵥ v ⬝ᵥ r = Wᵀ *ᵥ r ⬝ᵥ v := by
        rw [dotProduct_comm, Matrix.dotProduct_mulVec, ← Matrix.mulVec_transpose, Matrix.transpose_mul, h2,
          ← Matrix.mulVec_mulVec, hPr]
      have h9 : r ⬝ᵥ (W * H⁻¹ * Wᵀ) *ᵥ r = Wᵀ *ᵥ r ⬝ᵥ v := by
        rw [← Matrix.mulVec_mulVec, ← Matrix.mulVec_mulVec, ← hv, Matrix.dotProduct_mulVec,
          ← Matrix.mulVec_transpose]
      rw [h8, h9]
  rw [← hee]
  constructor
  · refine ⟨bo, v, ?_⟩
    unfold dotProduct
    exact Finset.sum_congr rfl fun i _ => by rw [he]; simp only [Pi.sub_apply, Pi.add_apply]; ring
  · rintro s ⟨b', w, rfl⟩
    have h7 : ∑ i, (y i - ((X *ᵥ b') i + (W *ᵥ w) i)) ^ 2
        = (e - (X *ᵥ (b' - bo) + W *ᵥ (w - v))) ⬝ᵥ (e - (X *ᵥ (b' - bo) + W *ᵥ (w - v))) := by
      unfold dotProduct
      refine Finset.sum_congr rfl fun i _ => ?_
      rw [he, Matrix.mulVec_sub, Matrix.mulVec_sub]
      simp only [Pi.sub_apply, Pi.add_apply]; ring
    rw [h7, dotProduct_sub, sub_dotProduct, sub_dotProduct, hort, dotProduct_comm (X *ᵥ (b' - bo) + W *ᵥ (w - v)) e, hort]
    have : 0 ≤ (X *ᵥ (b' - bo) + W *ᵥ (w - v)) ⬝ᵥ (X *ᵥ (b' - bo) + W *ᵥ (w - v)) :=
      Finset.sum_nonneg fun i _ => mul_self_nonneg _
    linarith

end Verif
