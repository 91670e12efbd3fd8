import Verif.Props.CLScore
import Verif.Lemmas.BesselDeriv

/-! # C92 with the Bessel functions and an exact linear solver put in -/

set_option autoImplicit false

namespace Verif.Props

open Real Verif Verif.Spec

variable {n p : ℕ} {theta : Fin n → ℝ} {X : Fin n → Fin p → ℝ}

/-- A linear solver exact for invertible matrices, as `np.linalg.solve` is meant to be. -/
private noncomputable def exactSolve (q : ℕ) (A : Matrix (Fin q) (Fin q) ℝ) (b : Fin q → ℝ) : Fin q → ℝ :=
  A⁻¹.mulVec b

private lemma exactSolve_spec (q : ℕ) (A : Matrix (Fin q) (Fin q) ℝ) (b : Fin q → ℝ) (h : IsUnit A.det) :
    A.mulVec (exactSolve q A b) = b := by
  unfold exactSolve
  rw [Matrix.mulVec_mulVec, Matrix.mul_nonsing_inv _ h, Matrix.one_mulVec]

/-- Model "kappa" with `A1 = I_1/I_0`: nothing is left to assume about the special functions. -/
theorem C92_kappa_bessel {solve : ∀ q : ℕ, Matrix (Fin q) (Fin q) ℝ → (Fin q → ℝ) → (Fin q → ℝ)}
    (hs : ∀ (q : ℕ) (A : Matrix (Fin q) (Fin q) ℝ) (b : Fin q → ℝ), IsUnit A.det → A.mulVec (solve q A b) = b)
    {c : CLParams p} {s : CLStep (CLParams p) (Fin n → ℝ)}
    (h : kappaStep theta X (fun k => besselI 1 k / besselI 0 k) (besselI 0) solve c = .ok (some s)) :
    (s.next.alpha = c.alpha ∧ s.next.gamma = c.gamma) ↔
      (HasDerivAt (fun t => vmLogLik (besselI 0) theta X s.mu (fun i => exp (t + ∑ k, X i k * c.gamma k)) 0) 0 c.alpha ∧
      ∀ j, HasDerivAt (fun t => vmLogLik (besselI 0) theta X s.mu
        (fun i => exp (c.alpha + ∑ k, X i k * Function.update c.gamma j t k)) 0) 0 (c.gamma j)) :=
  C92_kappa hs (fun k _ => hasDerivAt_log_besselI k) (fun _ hk => bessel_ratio_deriv_pos (ne_of_gt hk)) h

/-- Model "mixed", the concentration part, likewise. -/
theorem C92_mixed_gamma_bessel {solve : ∀ q : ℕ, Matrix (Fin q) (Fin q) ℝ → (Fin q → ℝ) → (Fin q → ℝ)}
    (hs : ∀ (q : ℕ) (A : Matrix (Fin q) (Fin q) ℝ) (b : Fin q → ℝ), IsUnit A.det → A.mulVec (solve q A b) = b)
    {c : CLParams p} {s : CLStep (CLParams p) (Fin n → ℝ)}
    (h : mixedStep theta X (fun k => besselI 1 k / besselI 0 k) (besselI 0) solve c = .ok (some s)) :
    (s.next.alpha = c.alpha ∧ s.next.gamma = c.gamma) ↔
      (HasDerivAt (fun t => vmLogLik (besselI 0) theta X s.mu (fun i => exp (t + ∑ k, X i k * c.gamma k)) c.beta)
        0 c.alpha ∧
      ∀ j, HasDerivAt (fun t => vmLogLik (besselI 0) theta X s.mu
        (fun i => exp (c.alpha + ∑ k, X i k * Function.update c.gamma j t k)) c.beta) 0 (c.gamma j)) :=
  C92_mixed_gamma hs (fun k _ => hasDerivAt_log_besselI k) (fun _ hk => bessel_ratio_deriv_pos (ne_of_gt hk)) h

/-- `0.4 ≤ I_1(1)/I_0(1) ≤ 0.5`. -/
private lemma ratio_at_one : 4 / 10 ≤ besselI 1 1 / besselI 0 1 ∧ besselI 1 1 / besselI 0 1 ≤ 1 / 2 := by
  have h0 := besselI_pos 0 (one_pos (α := ℝ))
  have h1 := besselI_pos 1 (one_pos (α := ℝ))
  constructor
  · have e1 := bessel_ratio_rec 0 (one_pos (α := ℝ))
    have e2 := (bessel_ratio_step 0 (one_pos (α := ℝ))).1
    simp only [zero_add] at e1 e2
    set A := besselI 1 1 / besselI 0 1 with hA
    have hA0 : 0 < A := by positivity
    have e3 : besselI 0 1 / besselI 1 1 = 1 / A := by rw [hA]; field_simp
    rw [e3] at e1
    have e4 : 1 / A ≤ A + 2 := by rw [e1]; push_cast; linarith
    rw [div_le_iff₀ hA0] at e4
    nlinarith
  · have := bessel_ratio_le 0 (one_pos (α := ℝ))
    simpa using this

/-- Model "mixed", the direction part, fails for the true Bessel functions and an exact solver. -/
theorem C92_mixed_fails_bessel {solve : ∀ q : ℕ, Matrix (Fin q) (Fin q) ℝ → (Fin q → ℝ) → (Fin q → ℝ)}
    (hs : ∀ (q : ℕ) (A : Matrix (Fin q) (Fin q) ℝ) (b : Fin q → ℝ), IsUnit A.det → A.mulVec (solve q A b) = b) :
    ∃ (theta : Fin 4 → ℝ) (X : Fin 4 → Fin 1 → ℝ) (c : CLParams 1) (s : CLStep (CLParams 1) (Fin 4 → ℝ)),
      mixedStep theta X (fun k => besselI 1 k / besselI 0 k) (besselI 0) solve c = .ok (some s) ∧ c.beta 0 = 1 ∧
      HasDerivAt (fun t => vmLogLik (besselI 0) theta X s.mu s.kappa (Function.update c.beta 0 t)) 0 (c.beta 0) ∧
      s.next.beta 0 ≤ 1 / 2 :=
  C92_mixed_fails hs ratio_at_one

/-- An exact solver exists. -/
example : ∃ solve : ∀ q : ℕ, Matrix (Fin q) (Fin q) ℝ → (Fin q → ℝ) → (Fin q → ℝ),
    ∀ (q : ℕ) (A : Matrix (Fin q) (Fin q) ℝ) (b : Fin q → ℝ), IsUnit A.det → A.mulVec (solve q A b) = b :=
  ⟨exactSolve, exactSolve_spec⟩

end Verif.Props
