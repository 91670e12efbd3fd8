import Verif.Spec.LeastSquares
import Mathlib.Tactic.Linarith
import Mathlib.Analysis.InnerProductSpace.Projection.Basic
import Mathlib.Analysis.InnerProductSpace.PiL2
import Mathlib.Tactic.Ring
import Mathlib.Tactic.FieldSimp
import Mathlib.Tactic.NormNum

/-! # Lemmas on least squares -/

namespace Verif

set_option autoImplicit false

variable {n : ℕ} {C : Type} [Fintype C] {X : Matrix (Fin n) C ℝ} {y : Fin n → ℝ} {b : C → ℝ}

theorem rss_add_smul (d : C → ℝ) (t : ℝ) :
    rss X y (b + t • d) = rss X y b - 2 * t * (∑ i, (y i - X.mulVec b i) * X.mulVec d i)
      + t ^ 2 * ∑ i, X.mulVec d i ^ 2 := by
  unfold rss
  rw [Finset.mul_sum, Finset.mul_sum, ← Finset.sum_sub_distrib, ← Finset.sum_add_distrib]
  refine Finset.sum_congr rfl fun i _ => ?_
  rw [Matrix.mulVec_add, Matrix.mulVec_smul]
  simp only [Pi.add_apply, Pi.smul_apply, smul_eq_mul]
  ring

/-- The residuals of a least-squares solution are orthogonal to every fitted vector. -/
theorem IsLeastSquares.ortho (h : IsLeastSquares X y b) (d : C → ℝ) :
    ∑ i, (y i - X.mulVec b i) * X.mulVec d i = 0 := by
  set A := ∑ i, (y i - X.mulVec b i) * X.mulVec d i with hA
  set B := ∑ i, X.mulVec d i ^ 2 with hB
  have hB0 : 0 ≤ B := Finset.sum_nonneg fun i _ => sq_nonneg _
  have h1 := h (b + (A / (B + 1)) • d)
  rw [rss_add_smul, ← hA, ← hB] at h1
  have hp : 0 < B + 1 := by linarith
  have h2 : 0 ≤ -2 * (A / (B + 1)) * A + (A / (B + 1)) ^ 2 * B := by linarith
  have h3 : -2 * (A / (B + 1)) * A + (A / (B + 1)) ^ 2 * B = -(A ^ 2 * (B + 2)) / (B + 1) ^ 2 := by
    field_simp
    ring
  rw [h3, le_div_iff₀ (by positivity)] at h2
  have h4 : A ^ 2 * (B + 2) ≤ 0 := by linarith
  have h5 : A ^ 2 ≤ 0 := by nlinarith [sq_nonneg A]
  exact pow_eq_zero_iff (two_ne_zero) |>.1 (le_antisymm h5 (sq_nonneg A))

theorem rss_eq_add_of_ortho (h : ∀ d, ∑ i, (y i - X.mulVec b i) * X.mulVec d i = 0) (b' : C → ℝ) :
    rss X y b' = rss X y b + ∑ i, X.mulVec (b' - b) i ^ 2 := by
  have h1 : b' = b + (1 : ℝ) • (b' - b) := by simp
  conv_lhs => rw [h1]
  rw [rss_add_smul, h]
  ring

theorem isLeastSquares_of_ortho (h : ∀ d, ∑ i, (y i - X.mulVec b i) * X.mulVec d i = 0) :
    IsLeastSquares X y b := by
  intro b'
  rw [rss_eq_add_of_ortho h b']
  exact le_add_of_nonneg_right (Finset.sum_nonneg fun i _ => sq_nonneg _)

/-- All least-squares solutions give the same fitted values. -/
theorem IsLeastSquares.unique {b' : C → ℝ} (h : IsLeastSquares X y b) (h' : IsLeastSquares X y b') :
    X.mulVec b = X.mulVec b' := by
  have h1 := rss_eq_add_of_ortho h.ortho b'
  have h2 := h' b
  have h3 : ∑ i, X.mulVec (b' - b) i ^ 2 ≤ 0 := by linarith
  have h4 : ∀ i ∈ Finset.univ, X.mulVec (b' - b) i ^ 2 = 0 := by
    have h5 := le_antisymm h3 (Finset.sum_nonneg fun i _ => sq_nonneg (X.mulVec (b' - b) i))
    exact (Finset.sum_eq_zero_iff_of_nonneg fun i _ => sq_nonneg _).1 h5
  funext i
  have h6 : X.mulVec (b' - b) i = 0 := pow_eq_zero_iff (two_ne_zero) |>.1 (h4 i (Finset.mem_univ i))
  rw [Matrix.mulVec_sub, Pi.sub_apply] at h6
  linarith

/-- Pythagoras. -/
theorem IsLeastSquares.sum_sq (h : IsLeastSquares X y b) :
    ∑ i, y i ^ 2 = ∑ i, X.mulVec b i ^ 2 + rss X y b := by
  have h1 := h.ortho b
  have h2 : ∑ i, y i ^ 2 = ∑ i, X.mulVec b i ^ 2 + rss X y b
      + 2 * ∑ i, (y i - X.mulVec b i) * X.mulVec b i := by
    unfold rss
    rw [Finset.mul_sum, ← Finset.sum_add_distrib, ← Finset.sum_add_distrib]
    exact Finset.sum_congr rfl fun i _ => by ring
  rw [h2, h1]; ring

theorem IsLeastSquares.comb {y' : Fin n → ℝ} {b' : C → ℝ} (h : IsLeastSquares X y b)
    (h' : IsLeastSquares X y' b') (s t : ℝ) :
    IsLeastSquares X (fun i => s * y i + t * y' i) (s • b + t • b') := by
  refine isLeastSquares_of_ortho fun d => ?_
  have h1 := h.ortho d
  have h2 := h'.ortho d
  have h3 : ∑ i, (s * y i + t * y' i - X.mulVec (s • b + t • b') i) * X.mulVec d i
      = s * (∑ i, (y i - X.mulVec b i) * X.mulVec d i) + t * ∑ i, (y' i - X.mulVec b' i) * X.mulVec d i := by
    rw [Finset.mul_sum, Finset.mul_sum, ← Finset.sum_add_distrib]
    refine Finset.sum_congr rfl fun i _ => ?_
    rw [Matrix.mulVec_add, Matrix.mulVec_smul, Matrix.mulVec_smul]
    simp only [Pi.add_apply, Pi.smul_apply, smul_eq_mul]
    ring
  rw [h3, h1, h2]; ring

theorem IsLeastSquares.congr_y {y' : Fin n → ℝ} (h : IsLeastSquares X y b) (hy : ∀ i, y i = y' i) :
    IsLeastSquares X y' b := by
  rwa [← funext hy]

/-- A least-squares solution always exists: project on the column space. -/
theorem exists_isLeastSquares (X : Matrix (Fin n) C ℝ) (y : Fin n → ℝ) : ∃ b, IsLeastSquares X y b := by
  let E := EuclideanSpace ℝ (Fin n)
  let f : (C → ℝ) →ₗ[ℝ] E := (WithLp.linearEquiv 2 ℝ (Fin n → ℝ)).symm.toLinearMap ∘ₗ X.mulVecLin
  let K : Submodule ℝ E := LinearMap.range f
  let z : E := WithLp.toLp 2 y
  obtain ⟨b, hb⟩ := LinearMap.mem_range.1 (K.starProjection_apply_mem z)
  refine ⟨b, isLeastSquares_of_ortho fun d => ?_⟩
  have h1 : inner ℝ (z - K.starProjection z) (f d) = 0 :=
    K.starProjection_inner_eq_zero z (f d) (LinearMap.mem_range_self f d)
  rw [← hb] at h1
  rw [PiLp.inner_apply] at h1
  rw [← h1]
  refine Finset.sum_congr rfl fun i _ => ?_
  simp only [f, z, LinearMap.comp_apply]
  exact mul_comm _ _

end Verif
