import Verif.Model.Regression
import Verif.Spec.Circle
import Verif.Lemmas.Circle
import Verif.Lemmas.Descriptive
import Verif.Lemmas.LeastSquares

/-! # Lemmas on circular-circular regression -/

namespace Verif

open Real Verif.Spec

set_option autoImplicit false

lemma cos_nat_mul_pymod (k : ℕ) (x : ℝ) : cos (((k : ℕ) + 1 : ℝ) * pymod x (2 * π)) = cos ((k + 1 : ℝ) * x) := by
  obtain ⟨z, hz⟩ := pymod_cong x (2 * π)
  refine cos_eq_of_sameDir ⟨(k + 1) * z, ?_⟩
  rw [hz]; push_cast; ring

lemma sin_nat_mul_pymod (k : ℕ) (x : ℝ) : sin (((k : ℕ) + 1 : ℝ) * pymod x (2 * π)) = sin ((k + 1 : ℝ) * x) := by
  obtain ⟨z, hz⟩ := pymod_cong x (2 * π)
  refine sin_eq_of_sameDir ⟨(k + 1) * z, ?_⟩
  rw [hz]; push_cast; ring

lemma ccDesign_pymod {n m : ℕ} (K : ℕ) (x : Fin n → Fin m → ℝ) :
    ccDesign K (fun i j => pymod (x i j) (2 * π)) = ccDesign K x := by
  ext i c
  rcases c with _ | ⟨j, k⟩ | ⟨j, k⟩
  · rfl
  · exact cos_nat_mul_pymod k (x i j)
  · exact sin_nat_mul_pymod k (x i j)

lemma ccHigher_pymod {n m : ℕ} (K : ℕ) (x : Fin n → Fin m → ℝ) :
    ccHigher K (fun i j => pymod (x i j) (2 * π)) = ccHigher K x := by
  ext i c
  rcases c with j | j
  · exact cos_nat_mul_pymod K (x i j)
  · exact sin_nat_mul_pymod K (x i j)

lemma mulVec_ccDesign {n m K : ℕ} (x : Fin n → Fin m → ℝ) (b : CCTerm m K → ℝ) (i : Fin n) :
    (ccDesign K x).mulVec b i = b (.inl ()) + ∑ j, ∑ k : Fin K,
      (b (.inr (.inl (j, k))) * cos ((k + 1 : ℝ) * x i j) + b (.inr (.inr (j, k))) * sin ((k + 1 : ℝ) * x i j)) := by
  unfold Matrix.mulVec dotProduct ccDesign
  simp only [Fintype.sum_sum_type, Matrix.of_apply, Finset.univ_unique, Finset.sum_singleton, one_mul,
    Fintype.sum_prod_type, ← Finset.sum_add_distrib]
  refine congrArg₂ _ rfl (Finset.sum_congr rfl fun j _ => Finset.sum_congr rfl fun k _ => ?_)
  ring

/-- The column space of the design does not depend on the zero directions of the predictors. -/
lemma ccDesign_shift {n m K : ℕ} (x : Fin n → Fin m → ℝ) (c : Fin m → ℝ) (b : CCTerm m K → ℝ) :
    ∃ b' : CCTerm m K → ℝ, (ccDesign K fun i j => x i j + c j).mulVec b = (ccDesign K x).mulVec b' := by
  refine ⟨fun t => match t with
    | .inl _ => b (.inl ())
    | .inr (.inl (j, k)) => b (.inr (.inl (j, k))) * cos ((k + 1 : ℝ) * c j)
        + b (.inr (.inr (j, k))) * sin ((k + 1 : ℝ) * c j)
    | .inr (.inr (j, k)) => -(b (.inr (.inl (j, k))) * sin ((k + 1 : ℝ) * c j))
        + b (.inr (.inr (j, k))) * cos ((k + 1 : ℝ) * c j), ?_⟩
  funext i
  rw [mulVec_ccDesign, mulVec_ccDesign]
  refine congrArg₂ _ rfl (Finset.sum_congr rfl fun j _ => Finset.sum_congr rfl fun k _ => ?_)
  simp only [mul_add, cos_add, sin_add]
  ring

lemma IsLeastSquares.of_span {n : ℕ} {C D : Type} [Fintype C] [Fintype D] {X : Matrix (Fin n) C ℝ}
    {X' : Matrix (Fin n) D ℝ} {y : Fin n → ℝ} {b : C → ℝ} {b' : D → ℝ} (h : IsLeastSquares X y b)
    (h' : IsLeastSquares X' y b') (h1 : ∀ d, ∃ d', X.mulVec d = X'.mulVec d')
    (h2 : ∀ d', ∃ d, X'.mulVec d' = X.mulVec d) : X.mulVec b = X'.mulVec b' := by
  obtain ⟨d', hd⟩ := h1 b
  rw [hd]
  refine IsLeastSquares.unique (fun e => ?_) h'
  obtain ⟨e', he⟩ := h2 e
  have := h e'
  unfold rss at this ⊢
  rwa [← hd, he]

/-- The result without the reductions modulo `2π`. -/
theorem ccFit_eq {n m : ℕ} (theta : Fin n → ℝ) (x : Fin n → Fin m → ℝ) (order : ℕ) (level : ℝ)
    (lstsq : Matrix (Fin n) (CCTerm m order) ℝ → (Fin n → ℝ) → (CCTerm m order → ℝ))
    (invX : Matrix (CCTerm m order) (CCTerm m order) ℝ → Matrix (CCTerm m order) (CCTerm m order) ℝ)
    (invW : Matrix (Fin m ⊕ Fin m) (Fin m ⊕ Fin m) ℝ → Matrix (Fin m ⊕ Fin m) (Fin m ⊕ Fin m) ℝ)
    (chi2 : ℝ → ℕ → ℝ) (ho : 1 ≤ order) (hl : 0 < level ∧ level < 1) :
    ccFit theta x order level lstsq invX invW chi2 =
      let X := ccDesign order x
      let yc := fun i => cos (theta i)
      let ys := fun i => sin (theta i)
      let cf := X.mulVec (lstsq X yc)
      let sf := X.mulVec (lstsq X ys)
      let fitted := fun i => pymod (arctan2 (sf i) (cf i)) (2 * π)
      let W := ccHigher order x
      let pv : Option (ℝ × ℝ) := if n * (m + m) = 0 then none else
        some (1 - chi2 (ccT order X W invX invW (yc - cf)) (m + m),
          1 - chi2 (ccT order X W invX invW (ys - sf)) (m + m))
      .ok { rho := (pydiv (∑ i, (cf i ^ 2 + sf i ^ 2)) n).map fun v => clip (sqrt v) 0 1
            fitted := fitted
            residuals := fun i => Complex.arg (Complex.exp (((theta i - fitted i : ℝ) : ℂ) * Complex.I))
            betaCos := lstsq X yc, betaSin := lstsq X ys, pvalues := pv
            message := ccMessage level pv } := by
  have hc : (fun i => cos (pymod (theta i) (2 * π))) = fun i => cos (theta i) :=
    funext fun i => cos_eq_of_sameDir (pymod_cong _ _)
  have hs : (fun i => sin (pymod (theta i) (2 * π))) = fun i => sin (theta i) :=
    funext fun i => sin_eq_of_sameDir (pymod_cong _ _)
  have he : ∀ (i : Fin n) (f : ℝ), Complex.exp (((pymod (theta i) (2 * π) - f : ℝ) : ℂ) * Complex.I)
      = Complex.exp (((theta i - f : ℝ) : ℂ) * Complex.I) := by
    intro i f
    rw [exp_eq_iff_sameDir]
    exact (pymod_cong _ _).sub (CongMod.refl _ _)
  unfold ccFit
  simp only [ccDesign_pymod, ccHigher_pymod, hc, hs, he]
  rw [if_neg (by omega), if_neg (by simpa using hl)]

end Verif
