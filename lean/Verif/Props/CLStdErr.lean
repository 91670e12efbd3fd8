import Verif.Model.RegressionSE
import Verif.Lemmas.Fisher
import Mathlib.LinearAlgebra.Matrix.NonsingularInverse
import Mathlib.Analysis.SpecialFunctions.Trigonometric.ArctanDeriv
import Mathlib.Analysis.SpecialFunctions.ExpDeriv

/-! # C117: the standard errors of the circular-linear regression -/

set_option autoImplicit false

namespace Verif.Props

open Real Verif Verif.Spec

section Forms

variable {ι : Type} [Fintype ι] [DecidableEq ι] {n : ℕ}

private lemma form_eq {J : Matrix ι ι ℝ} {w : Fin n → ℝ} {g : Fin n → ι → ℝ}
    (hJ : ∀ a b, J a b = ∑ i, g i a * (w i * g i b)) (x y : ι → ℝ) :
    ∑ a, x a * J.mulVec y a = ∑ i, w i * (∑ a, g i a * x a) * ∑ b, g i b * y b := by
  unfold Matrix.mulVec dotProduct
  simp only [hJ, Finset.sum_mul, Finset.mul_sum]
  have h1 : ∀ a, ∑ b, ∑ i, x a * (g i a * (w i * g i b) * y b) = ∑ i, ∑ b, x a * (g i a * (w i * g i b) * y b) :=
    fun a => Finset.sum_comm
  simp only [h1]
  rw [Finset.sum_comm]
  refine Finset.sum_congr rfl fun i _ => ?_
  rw [Finset.sum_comm]
  refine Finset.sum_congr rfl fun b _ => Finset.sum_congr rfl fun a _ => by ring

private lemma form_ridge {J : Matrix ι ι ℝ} {w : Fin n → ℝ} {g : Fin n → ι → ℝ} {e : ℝ}
    (hJ : ∀ a b, J a b = ∑ i, g i a * (w i * g i b)) (x y : ι → ℝ) :
    ∑ a, x a * (J + e • (1 : Matrix ι ι ℝ)).mulVec y a
      = ∑ i, w i * (∑ a, g i a * x a) * ∑ b, g i b * y b + e * ∑ a, x a * y a := by
  rw [← form_eq hJ, Finset.mul_sum, ← Finset.sum_add_distrib]
  refine Finset.sum_congr rfl fun a _ => ?_
  rw [Matrix.add_mulVec, Matrix.smul_mulVec, Matrix.one_mulVec, Pi.add_apply, Pi.smul_apply, smul_eq_mul]
  ring

private lemma ridge_unit {J : Matrix ι ι ℝ} {w : Fin n → ℝ} (hw : ∀ i, 0 ≤ w i) {g : Fin n → ι → ℝ} {e : ℝ} (he : 0 < e)
    (hJ : ∀ a b, J a b = ∑ i, g i a * (w i * g i b)) : IsUnit (J + e • (1 : Matrix ι ι ℝ)).det := by
  rw [isUnit_iff_ne_zero]
  intro h0
  obtain ⟨v, hv, h1⟩ := Matrix.exists_mulVec_eq_zero_iff.2 h0
  apply hv
  have h2 := form_ridge (e := e) hJ v v
  rw [h1] at h2
  simp only [Pi.zero_apply, mul_zero, Finset.sum_const_zero] at h2
  have h3 : 0 ≤ ∑ i, w i * (∑ a, g i a * v a) * ∑ b, g i b * v b :=
    Finset.sum_nonneg fun i _ => by
      rw [mul_assoc]; exact mul_nonneg (hw i) (mul_self_nonneg _)
  have h4 : 0 ≤ ∑ a, v a * v a := Finset.sum_nonneg fun a _ => mul_self_nonneg _
  have h5 : ∑ a, v a * v a = 0 := by nlinarith
  funext a
  have := (Finset.sum_eq_zero_iff_of_nonneg fun a _ => mul_self_nonneg (v a)).1 h5 a (Finset.mem_univ a)
  simpa using this

/-- The column of the inverse. -/
private lemma inv_col {Q : Matrix ι ι ℝ} (hQ : IsUnit Q.det) (j : ι) :
    ∃ u : ι → ℝ, u j = Q⁻¹ j j ∧ Q.mulVec u = Pi.single j 1 := by
  refine ⟨Q⁻¹.mulVec (Pi.single j 1), ?_, ?_⟩
  · rw [Matrix.mulVec_single_one]; rfl
  · rw [Matrix.mulVec_mulVec, Matrix.mul_nonsing_inv _ hQ, Matrix.one_mulVec]

private lemma single_sum (x : ι → ℝ) (j : ι) : ∑ a, x a * (Pi.single j 1 : ι → ℝ) a = x j := by
  simp [Pi.single_apply]

/-- The diagonal of the regularised inverse. -/
private lemma ridge_diag {J : Matrix ι ι ℝ} {w : Fin n → ℝ} (hw : ∀ i, 0 ≤ w i) {g : Fin n → ι → ℝ} {e : ℝ} (he : 0 < e)
    (hJ : ∀ a b, J a b = ∑ i, g i a * (w i * g i b)) (j : ι) :
    ∃ u : ι → ℝ, u j = (J + e • (1 : Matrix ι ι ℝ))⁻¹ j j ∧
      u j = ∑ i, w i * (∑ a, g i a * u a) ^ 2 + e * ∑ a, u a ^ 2 ∧ 0 < u j ∧ u j ≤ 1 / e := by
  obtain ⟨u, h1, h2⟩ := inv_col (ridge_unit hw he hJ) j
  have h3 := form_ridge (e := e) hJ u u
  rw [h2, single_sum] at h3
  have h3' : u j = ∑ i, w i * (∑ a, g i a * u a) ^ 2 + e * ∑ a, u a ^ 2 := by
    rw [h3]
    congr 1
    · exact Finset.sum_congr rfl fun i _ => by ring
    · congr 1; exact Finset.sum_congr rfl fun i _ => by ring
  have h4 : 0 ≤ ∑ i, w i * (∑ a, g i a * u a) ^ 2 := Finset.sum_nonneg fun i _ => mul_nonneg (hw i) (sq_nonneg _)
  have h5 : u j ^ 2 ≤ ∑ a, u a ^ 2 := Finset.single_le_sum (fun a _ => sq_nonneg (u a)) (Finset.mem_univ j)
  have h6 : 0 < ∑ a, u a ^ 2 := by
    refine lt_of_le_of_ne (Finset.sum_nonneg fun a _ => sq_nonneg _) fun h0 => ?_
    have hz : u = 0 := by
      funext a
      have := (Finset.sum_eq_zero_iff_of_nonneg fun a _ => sq_nonneg (u a)).1 h0.symm a (Finset.mem_univ a)
      simpa using this
    rw [hz, Matrix.mulVec_zero] at h2
    have := congrFun h2 j
    simp at this
  have h7 : 0 < u j := by rw [h3']; have := mul_pos he h6; linarith
  refine ⟨u, h1, h3', h7, ?_⟩
  rw [le_div_iff₀ he]
  have h8 : e * u j ^ 2 ≤ u j := by
    calc e * u j ^ 2 ≤ e * ∑ a, u a ^ 2 := mul_le_mul_of_nonneg_left h5 he.le
      _ ≤ u j := by rw [h3']; linarith
  by_contra h9
  push Not at h9
  nlinarith

end Forms

variable {n p : ℕ} {X : Fin n → Fin p → ℝ}

private lemma lin_deriv (i : Fin n) (beta : Fin p → ℝ) (j : Fin p) :
    HasDerivAt (fun t => ∑ k, X i k * Function.update beta j t k) (X i j) (beta j) := by
  have h : ∀ t, ∑ k, X i k * Function.update beta j t k = ∑ k, X i k * beta k + X i j * (t - beta j) := by
    intro t
    have : ∀ k, X i k * Function.update beta j t k = X i k * beta k + if k = j then X i j * (t - beta j) else 0 := by
      intro k
      by_cases hk : k = j
      · subst hk; simp; ring
      · simp [hk]
    simp only [this, Finset.sum_add_distrib, Finset.sum_ite_eq', Finset.mem_univ, if_true]
  simp only [h]
  have := ((hasDerivAt_id (beta j)).sub_const (beta j)).const_mul (X i j)
  simpa using this.const_add (∑ k, X i k * beta k)

private lemma g_deriv (mu : ℝ) (i : Fin n) (beta : Fin p → ℝ) (j : Fin p) :
    HasDerivAt (fun t => mu + 2 * arctan (∑ k, X i k * Function.update beta j t k)) (gMat X beta i j) (beta j) := by
  have h := ((lin_deriv (X := X) i beta j).arctan.const_mul 2).const_add mu
  refine h.congr_deriv ?_
  rw [Function.update_eq_self]
  unfold gMat linPred
  have : 1 + (∑ k, X i k * beta k) ^ 2 ≠ 0 := by positivity
  field_simp

/-- The information about the coefficients of the mean direction. -/
private lemma info_beta (mu : ℝ) (kappa : Fin n → ℝ) (beta : Fin p → ℝ) (a b : Fin p) :
    fisherInfo (fun e i => vonMises (mu + 2 * arctan (∑ k, X i k * e k)) (kappa i)) beta a b
      = ∑ i, gMat X beta i a * (kappa i * (besselI 1 (kappa i) / besselI 0 (kappa i)) * gMat X beta i b) :=
  fisher_location (m := fun e i => mu + 2 * arctan (∑ k, X i k * e k)) (fun i a => g_deriv mu i beta a) a b

private lemma lin_cons (i : Fin n) (d : Fin (p + 1) → ℝ) :
    ∑ j, withOnes X i j * d j = d 0 + ∑ k, X i k * d k.succ := by
  rw [Fin.sum_univ_succ]
  simp [withOnes]

private lemma lin_deriv_ones (i : Fin n) (d : Fin (p + 1) → ℝ) (j : Fin (p + 1)) :
    HasDerivAt (fun t => exp (Function.update d j t 0 + ∑ k, X i k * Function.update d j t (Fin.succ k)))
      (exp (d 0 + ∑ k, X i k * d (Fin.succ k)) * withOnes X i j) (d j) := by
  have h := (lin_deriv (X := withOnes X) i d j).exp
  simp only [lin_cons, Function.update_eq_self] at h
  exact h

/-- The information about the coefficients of the concentration. -/
private lemma info_gamma (m : Fin n → ℝ) (d : Fin (p + 1) → ℝ) (a b : Fin (p + 1)) :
    fisherInfo (fun e i => vonMises (m i) (exp (e 0 + ∑ k, X i k * e (Fin.succ k)))) d a b
      = ∑ i, withOnes X i a * ((exp (d 0 + ∑ k, X i k * d (Fin.succ k)) ^ 2
          * a1Prime (fun k => besselI 1 k / besselI 0 k) (exp (d 0 + ∑ k, X i k * d (Fin.succ k)))) * withOnes X i b) := by
  rw [fisher_concentration (m := m) (kappa := fun e i => exp (e 0 + ∑ k, X i k * e (Fin.succ k)))
    (fun i a => lin_deriv_ones i d a) (fun i => (exp_pos _).ne') a b]
  exact Finset.sum_congr rfl fun i _ => by ring

private lemma kA_nonneg {k : ℝ} (hk : 0 ≤ k) : 0 ≤ k * (besselI 1 k / besselI 0 k) := by
  rcases hk.eq_or_lt with h | h
  · rw [← h]; simp
  · exact (mul_pos h (div_pos (besselI_pos 1 h) (besselI_zero_pos k))).le

/-- A standard error is the root of a diagonal entry of the inverse of an information matrix `J` increased by
`10⁻⁸` on the diagonal; it is positive and at most `10⁴`. -/
private lemma se_core {q : ℕ} {inv : ∀ q : ℕ, Matrix (Fin q) (Fin q) ℝ → Matrix (Fin q) (Fin q) ℝ}
    (hinv : ∀ (q : ℕ) (A : Matrix (Fin q) (Fin q) ℝ), IsUnit A.det → inv q A = A⁻¹)
    {J M : Matrix (Fin q) (Fin q) ℝ} {w : Fin n → ℝ} (hw : ∀ i, 0 ≤ w i) {g : Fin n → Fin q → ℝ}
    (hJ : ∀ a b, J a b = ∑ i, g i a * (w i * g i b)) (hM : M = J + (1 / 10 ^ 8 : ℝ) • 1) (j : Fin q) :
    √(inv q M j j) ^ 2 = (J + (1 / 10 ^ 8 : ℝ) • (1 : Matrix (Fin q) (Fin q) ℝ))⁻¹ j j ∧
      0 < √(inv q M j j) ∧ √(inv q M j j) ≤ 10 ^ 4 := by
  subst hM
  rw [hinv _ _ (ridge_unit hw (by norm_num) hJ)]
  obtain ⟨u, h1, -, h2, h3⟩ := ridge_diag hw (by norm_num : (0 : ℝ) < 1 / 10 ^ 8) hJ j
  rw [← h1]
  refine ⟨sq_sqrt h2.le, sqrt_pos.2 h2, ?_⟩
  rw [show (10 : ℝ) ^ 4 = √(10 ^ 8) by rw [show (10 : ℝ) ^ 8 = (10 ^ 4) ^ 2 by norm_num, sqrt_sq (by norm_num)]]
  exact sqrt_le_sqrt (by norm_num at h3 ⊢; linarith)

variable {inv : ∀ q : ℕ, Matrix (Fin q) (Fin q) ℝ → Matrix (Fin q) (Fin q) ℝ}

/-- **C117.** Model "mean": the squared standard error of `betaⱼ` is the `j`th diagonal entry of the inverse of the
Fisher information about `beta` (mean direction `mu` and concentration held fixed), increased by `10⁻⁸` on its
diagonal. It is positive and at most `10⁴`. -/
theorem C117_mean (hinv : ∀ (q : ℕ) (A : Matrix (Fin q) (Fin q) ℝ), IsUnit A.det → inv q A = A⁻¹)
    (r : CLResult (CLParams p) ℝ) (hk : 0 ≤ r.kappa) (j : Fin p) :
    (meanSE X (fun k => besselI 1 k / besselI 0 k) inv r).beta j ^ 2
      = (fisherInfo (fun b i => vonMises (r.mu + 2 * arctan (∑ k, X i k * b k)) r.kappa) r.params.beta
        + (1 / 10 ^ 8 : ℝ) • (1 : Matrix (Fin p) (Fin p) ℝ))⁻¹ j j ∧
    0 < (meanSE X (fun k => besselI 1 k / besselI 0 k) inv r).beta j ∧
    (meanSE X (fun k => besselI 1 k / besselI 0 k) inv r).beta j ≤ 10 ^ 4 := by
  refine se_core hinv (w := fun _ : Fin n => r.kappa * (besselI 1 r.kappa / besselI 0 r.kappa)) (fun _ => kA_nonneg hk)
    (fun a b => info_beta r.mu (fun _ => r.kappa) r.params.beta a b) ?_ j
  unfold ridge
  congr 1
  ext a b
  rw [info_beta r.mu (fun _ => r.kappa)]
  simp only [Matrix.smul_apply, gram, Matrix.of_apply, smul_eq_mul, Finset.mul_sum]
  exact Finset.sum_congr rfl fun i _ => by ring

private lemma cov_core (hinv : ∀ (q : ℕ) (A : Matrix (Fin q) (Fin q) ℝ), IsUnit A.det → inv q A = A⁻¹)
    (m : Fin n → ℝ) {c : CLParams p} {mu ll : ℝ} {kappa : Fin n → ℝ} (hk : kappa = kappaOf X c.alpha c.gamma)
    (j : Fin (p + 1)) :
    √(covGammaAlpha X (fun k => besselI 1 k / besselI 0 k) inv ⟨c, mu, kappa, ll⟩ j j) ^ 2
      = (fisherInfo (fun (d : Fin (p + 1) → ℝ) i => vonMises (m i) (exp (d 0 + ∑ k, X i k * d (Fin.succ k))))
          (Fin.cons c.alpha c.gamma) + (1 / 10 ^ 8 : ℝ) • (1 : Matrix (Fin (p + 1)) (Fin (p + 1)) ℝ))⁻¹ j j ∧
    0 < √(covGammaAlpha X (fun k => besselI 1 k / besselI 0 k) inv ⟨c, mu, kappa, ll⟩ j j) ∧
    √(covGammaAlpha X (fun k => besselI 1 k / besselI 0 k) inv ⟨c, mu, kappa, ll⟩ j j) ≤ 10 ^ 4 := by
  refine se_core hinv (fun i => ?_) (fun a b => info_gamma m (Fin.cons c.alpha c.gamma) a b) ?_ j
  · exact mul_nonneg (sq_nonneg _) (bessel_ratio_deriv_pos (exp_pos _).ne').le
  · unfold ridge
    congr 1
    ext a b
    rw [info_gamma]
    simp only [gram, Matrix.of_apply]
    refine Finset.sum_congr rfl fun i _ => ?_
    rw [lin_cons, hk]
    rfl

/-- **C117.** Model "kappa", when the loop stops because the log-likelihood has settled (`s` is the last pass, `c` its
coefficients): the squared standard errors of `alpha` and `gamma` are the diagonal entries of the inverse of the Fisher
information about them, increased by `10⁻⁸` on its diagonal; all are positive and at most `10⁴`. -/
theorem C117_kappa (hinv : ∀ (q : ℕ) (A : Matrix (Fin q) (Fin q) ℝ), IsUnit A.det → inv q A = A⁻¹)
    {theta : Fin n → ℝ} {i0 : ℝ → ℝ} {solve : ∀ q : ℕ, Matrix (Fin q) (Fin q) ℝ → (Fin q → ℝ) → (Fin q → ℝ)}
    {c : CLParams p} {s : CLStep (CLParams p) (Fin n → ℝ)}
    (h : kappaStep theta X (fun k => besselI 1 k / besselI 0 k) i0 solve c = .ok (some s)) :
    ∃ (I : Matrix (Fin (p + 1)) (Fin (p + 1)) ℝ) (se : KappaSE n p),
      I = fisherInfo (fun (d : Fin (p + 1) → ℝ) i => vonMises s.mu (exp (d 0 + ∑ k, X i k * d (Fin.succ k))))
          (Fin.cons c.alpha c.gamma) + (1 / 10 ^ 8 : ℝ) • 1 ∧
      se = kappaSE X (fun k => besselI 1 k / besselI 0 k) inv ⟨c, s.mu, s.kappa, s.ll⟩ ∧
      se.alpha ^ 2 = I⁻¹ 0 0 ∧ 0 < se.alpha ∧ se.alpha ≤ 10 ^ 4 ∧
      ∀ j, se.gamma j ^ 2 = I⁻¹ j.succ j.succ ∧ 0 < se.gamma j ∧ se.gamma j ≤ 10 ^ 4 := by
  have hk : s.kappa = kappaOf X c.alpha c.gamma := by
    unfold kappaStep at h
    simp only [Except.map] at h
    split at h
    · exact absurd h (by simp)
    · simp only [Except.ok.injEq, Option.some.injEq] at h
      rw [← h]
  refine ⟨_, _, rfl, rfl, ?_⟩
  obtain ⟨h1, h2, h3⟩ := cov_core hinv (fun _ => s.mu) hk (mu := s.mu) (ll := s.ll) 0
  exact ⟨h1, h2, h3, fun j => cov_core hinv (fun _ => s.mu) hk (mu := s.mu) (ll := s.ll) j.succ⟩

/-- **C117.** Model "mixed", when the loop stops because the log-likelihood has settled: the squared standard errors of
`beta`, `alpha` and `gamma` are the diagonal entries of the inverses of the Fisher informations about `beta` and about
`(alpha, gamma)`, increased by `10⁻⁸` on the diagonal. -/
theorem C117_mixed (hinv : ∀ (q : ℕ) (A : Matrix (Fin q) (Fin q) ℝ), IsUnit A.det → inv q A = A⁻¹)
    {theta : Fin n → ℝ} {i0 : ℝ → ℝ} {solve : ∀ q : ℕ, Matrix (Fin q) (Fin q) ℝ → (Fin q → ℝ) → (Fin q → ℝ)}
    {c : CLParams p} {s : CLStep (CLParams p) (Fin n → ℝ)}
    (h : mixedStep theta X (fun k => besselI 1 k / besselI 0 k) i0 solve c = .ok (some s)) :
    ∃ (B : Matrix (Fin p) (Fin p) ℝ) (I : Matrix (Fin (p + 1)) (Fin (p + 1)) ℝ) (se : MixedSE n p),
      B = fisherInfo (fun b i => vonMises (s.mu + 2 * arctan (∑ k, X i k * b k)) (s.kappa i)) c.beta
          + (1 / 10 ^ 8 : ℝ) • 1 ∧
      I = fisherInfo (fun (d : Fin (p + 1) → ℝ) i => vonMises (s.mu + 2 * arctan (∑ k, X i k * c.beta k))
            (exp (d 0 + ∑ k, X i k * d (Fin.succ k)))) (Fin.cons c.alpha c.gamma) + (1 / 10 ^ 8 : ℝ) • 1 ∧
      se = mixedSE X (fun k => besselI 1 k / besselI 0 k) inv ⟨c, s.mu, s.kappa, s.ll⟩ ∧
      se.alpha ^ 2 = I⁻¹ 0 0 ∧ 0 < se.alpha ∧ se.alpha ≤ 10 ^ 4 ∧
      (∀ j, se.gamma j ^ 2 = I⁻¹ j.succ j.succ ∧ 0 < se.gamma j ∧ se.gamma j ≤ 10 ^ 4) ∧
      ∀ j, se.beta j ^ 2 = B⁻¹ j j ∧ 0 < se.beta j ∧ se.beta j ≤ 10 ^ 4 := by
  have hk : s.kappa = kappaOf X c.alpha c.gamma := by
    unfold mixedStep at h
    simp only [Except.map] at h
    split at h
    · exact absurd h (by simp)
    · simp only [Except.ok.injEq, Option.some.injEq] at h
      rw [← h]
  have hpos : ∀ i, 0 ≤ s.kappa i := fun i => by rw [hk]; exact (exp_pos _).le
  refine ⟨_, _, _, rfl, rfl, rfl, ?_⟩
  obtain ⟨h1, h2, h3⟩ := cov_core hinv (fun i => s.mu + 2 * arctan (∑ k, X i k * c.beta k)) hk (mu := s.mu) (ll := s.ll) 0
  refine ⟨h1, h2, h3, fun j => cov_core hinv _ hk (mu := s.mu) (ll := s.ll) j.succ, fun j => ?_⟩
  refine se_core hinv (fun i => kA_nonneg (hpos i)) (fun a b => info_beta s.mu s.kappa c.beta a b) ?_ j
  unfold ridge
  congr 1
  ext a b
  rw [info_beta s.mu s.kappa]
  rfl

/-! ## The standard errors of the coefficients are those for a known mean direction -/

private lemma joint_deriv (mu : ℝ) (i : Fin n) (beta : Fin p → ℝ) (a : Option (Fin p)) :
    HasDerivAt (fun t => Function.update (fun o : Option (Fin p) => o.elim mu beta) a t none
        + 2 * arctan (∑ k, X i k * Function.update (fun o : Option (Fin p) => o.elim mu beta) a t (some k)))
      (a.elim 1 (gMat X beta i)) (a.elim mu beta) := by
  cases a with
  | none =>
    simp only [Function.update_self, ne_eq, reduceCtorEq, not_false_eq_true, Function.update_of_ne, Option.elim]
    exact (hasDerivAt_id mu).add_const _
  | some j =>
    have h : ∀ (t : ℝ) (k : Fin p), Function.update (fun o : Option (Fin p) => o.elim mu beta) (some j) t (some k)
        = Function.update beta j t k := by
      intro t k
      by_cases hk : k = j
      · subst hk; simp
      · simp [Function.update_of_ne hk, Function.update_of_ne (fun h => hk (Option.some_injective _ h))]
    simp only [h]
    simp only [ne_eq, reduceCtorEq, not_false_eq_true, Function.update_of_ne, Option.elim]
    exact g_deriv mu i beta j

/-- The information about the mean direction and its coefficients together. -/
private lemma info_joint (mu : ℝ) (kappa : Fin n → ℝ) (beta : Fin p → ℝ) (a b : Option (Fin p)) :
    fisherInfo (fun (e : Option (Fin p) → ℝ) i => vonMises (e none + 2 * arctan (∑ k, X i k * e (some k))) (kappa i))
        (fun o => o.elim mu beta) a b
      = ∑ i, a.elim 1 (gMat X beta i) * (kappa i * (besselI 1 (kappa i) / besselI 0 (kappa i)) * b.elim 1 (gMat X beta i)) :=
  fisher_location (m := fun e i => e none + 2 * arctan (∑ k, X i k * e (some k)))
    (fun i a => joint_deriv mu i beta a) a b

private lemma understates_core {mu : ℝ} {kappa : Fin n → ℝ} (hk : ∀ i, 0 ≤ kappa i) {beta : Fin p → ℝ}
    (hJ : IsUnit (fisherInfo (fun (e : Option (Fin p) → ℝ) i =>
      vonMises (e none + 2 * arctan (∑ k, X i k * e (some k))) (kappa i)) (fun o => o.elim mu beta)).det) (j : Fin p) :
    (fisherInfo (fun b i => vonMises (mu + 2 * arctan (∑ k, X i k * b k)) (kappa i)) beta
        + (1 / 10 ^ 8 : ℝ) • (1 : Matrix (Fin p) (Fin p) ℝ))⁻¹ j j
      < (fisherInfo (fun (e : Option (Fin p) → ℝ) i =>
          vonMises (e none + 2 * arctan (∑ k, X i k * e (some k))) (kappa i)) (fun o => o.elim mu beta))⁻¹
            (some j) (some j) := by
  obtain ⟨w, hw⟩ : ∃ w : Fin n → ℝ, w = fun i => kappa i * (besselI 1 (kappa i) / besselI 0 (kappa i)) := ⟨_, rfl⟩
  have hw0 : ∀ i, 0 ≤ w i := fun i => by rw [hw]; exact kA_nonneg (hk i)
  have hB : ∀ a b, fisherInfo (fun b i => vonMises (mu + 2 * arctan (∑ k, X i k * b k)) (kappa i)) beta a b
      = ∑ i, gMat X beta i a * (w i * gMat X beta i b) := fun a b => by rw [hw]; exact info_beta mu kappa beta a b
  have hJJ : ∀ a b, fisherInfo (fun (e : Option (Fin p) → ℝ) i =>
      vonMises (e none + 2 * arctan (∑ k, X i k * e (some k))) (kappa i)) (fun o => o.elim mu beta) a b
      = ∑ i, a.elim 1 (gMat X beta i) * (w i * b.elim 1 (gMat X beta i)) :=
    fun a b => by rw [hw]; exact info_joint mu kappa beta a b
  generalize fisherInfo (fun (e : Option (Fin p) → ℝ) i =>
      vonMises (e none + 2 * arctan (∑ k, X i k * e (some k))) (kappa i)) (fun o => o.elim mu beta) = J at hJ hJJ ⊢
  generalize fisherInfo (fun b i => vonMises (mu + 2 * arctan (∑ k, X i k * b k)) (kappa i)) beta = B at hB ⊢
  obtain ⟨v, hv1, hv2, hv3, -⟩ := ridge_diag hw0 (by norm_num : (0 : ℝ) < 1 / 10 ^ 8) hB j
  obtain ⟨u, hu1, hu2⟩ := inv_col hJ (some j)
  rw [← hv1, ← hu1]
  -- the vector of the smaller problem, extended by zero
  have huu := form_eq hJJ u u
  have hvu := form_eq hJJ (fun o => o.elim 0 v) u
  rw [hu2, single_sum] at huu hvu
  have hext : ∀ i : Fin n, ∑ a : Option (Fin p), a.elim 1 (gMat X beta i) * a.elim 0 v = ∑ k, gMat X beta i k * v k := by
    intro i
    rw [Fintype.sum_option]
    simp
  simp only [hext] at hvu
  have hsq : 0 ≤ ∑ i, w i * ((∑ a : Option (Fin p), a.elim 1 (gMat X beta i) * u a) - ∑ k, gMat X beta i k * v k) ^ 2 :=
    Finset.sum_nonneg fun i _ => mul_nonneg (hw0 i) (sq_nonneg _)
  have hexp : ∑ i, w i * ((∑ a : Option (Fin p), a.elim 1 (gMat X beta i) * u a) - ∑ k, gMat X beta i k * v k) ^ 2
      = u (some j) - 2 * v j + ∑ i, w i * (∑ k, gMat X beta i k * v k) ^ 2 := by
    have hvu' : v j = _ := hvu
    rw [huu, hvu', Finset.mul_sum,
      ← Finset.sum_sub_distrib, ← Finset.sum_add_distrib]
    exact Finset.sum_congr rfl fun i _ => by ring
  have hpos : 0 < ∑ a, v a ^ 2 := by
    have h5 : v j ^ 2 ≤ ∑ a, v a ^ 2 := Finset.single_le_sum (fun a _ => sq_nonneg (v a)) (Finset.mem_univ j)
    have : 0 < v j ^ 2 := by positivity
    linarith
  rw [hexp] at hsq
  have : 0 < 1 / 10 ^ 8 * ∑ a, v a ^ 2 := by positivity
  linarith

/-- **C117.** Model "mean": whenever the mean direction and its coefficients can be estimated together (their joint
Fisher information is regular), the reported squared standard error of every `betaⱼ` is strictly smaller than the
asymptotic variance of `betaⱼ`, the entry of the inverse of the joint information: `mu`, which is estimated from the same
data, is treated as known. -/
theorem C117_mean_understates (hinv : ∀ (q : ℕ) (A : Matrix (Fin q) (Fin q) ℝ), IsUnit A.det → inv q A = A⁻¹)
    (r : CLResult (CLParams p) ℝ) (hk : 0 ≤ r.kappa) {J : Matrix (Option (Fin p)) (Option (Fin p)) ℝ}
    (hJ : J = fisherInfo (fun (e : Option (Fin p) → ℝ) (i : Fin n) =>
      vonMises (e none + 2 * arctan (∑ k, X i k * e (some k))) r.kappa) (fun o => o.elim r.mu r.params.beta))
    (hreg : IsUnit J.det) (j : Fin p) :
    (meanSE X (fun k => besselI 1 k / besselI 0 k) inv r).beta j ^ 2 < J⁻¹ (some j) (some j) := by
  subst hJ
  rw [(C117_mean hinv r hk j).1]
  exact understates_core (kappa := fun _ => r.kappa) (fun _ => hk) hreg j

/-- **C117.** The same for the model "mixed". -/
theorem C117_mixed_understates (hinv : ∀ (q : ℕ) (A : Matrix (Fin q) (Fin q) ℝ), IsUnit A.det → inv q A = A⁻¹)
    {theta : Fin n → ℝ} {i0 : ℝ → ℝ} {solve : ∀ q : ℕ, Matrix (Fin q) (Fin q) ℝ → (Fin q → ℝ) → (Fin q → ℝ)}
    {c : CLParams p} {s : CLStep (CLParams p) (Fin n → ℝ)}
    (h : mixedStep theta X (fun k => besselI 1 k / besselI 0 k) i0 solve c = .ok (some s))
    {J : Matrix (Option (Fin p)) (Option (Fin p)) ℝ}
    (hJ : J = fisherInfo (fun (e : Option (Fin p) → ℝ) (i : Fin n) =>
      vonMises (e none + 2 * arctan (∑ k, X i k * e (some k))) (s.kappa i)) (fun o => o.elim s.mu c.beta))
    (hreg : IsUnit J.det) (j : Fin p) :
    (mixedSE X (fun k => besselI 1 k / besselI 0 k) inv ⟨c, s.mu, s.kappa, s.ll⟩).beta j ^ 2
      < J⁻¹ (some j) (some j) := by
  subst hJ
  have hk : s.kappa = kappaOf X c.alpha c.gamma := by
    unfold mixedStep at h
    simp only [Except.map] at h
    split at h
    · exact absurd h (by simp)
    · simp only [Except.ok.injEq, Option.some.injEq] at h
      rw [← h]
  have hpos : ∀ i, 0 ≤ s.kappa i := fun i => by rw [hk]; exact (exp_pos _).le
  obtain ⟨B, I, se, rfl, rfl, rfl, -, -, -, -, hb⟩ := C117_mixed hinv h
  rw [(hb j).1]
  exact understates_core hpos hreg j

/-- **C117.** With a constant predictor, `beta` and `mu` cannot be told apart: whatever `beta` is changed to, some `mu`
gives every observation the same density. The reported standard error of `beta` is nevertheless at most
`(1 + beta²) / (2 √(n κ A1(κ)))`, which tends to zero as the sample grows. -/
theorem C117_unidentified (hinv : ∀ (q : ℕ) (A : Matrix (Fin q) (Fin q) ℝ), IsUnit A.det → inv q A = A⁻¹)
    {X : Fin n → Fin 1 → ℝ} (hX : ∀ i, X i 0 = 1) (r : CLResult (CLParams 1) ℝ) (hk : 0 ≤ r.kappa) :
    (∀ b, ∃ mu, ∀ i t, vonMises (mu + 2 * arctan (X i 0 * b)) r.kappa t
      = vonMises (r.mu + 2 * arctan (X i 0 * r.params.beta 0)) r.kappa t) ∧
    (meanSE X (fun k => besselI 1 k / besselI 0 k) inv r).beta 0 ^ 2
      * (4 * n * (r.kappa * (besselI 1 r.kappa / besselI 0 r.kappa))) ≤ (1 + r.params.beta 0 ^ 2) ^ 2 := by
  refine ⟨fun b => ⟨r.mu + 2 * arctan (r.params.beta 0) - 2 * arctan b, fun i t => ?_⟩, ?_⟩
  · rw [hX, one_mul, one_mul]; congr 1; ring
  · rw [(C117_mean hinv r hk 0).1]
    obtain ⟨u, h1, h2, h3, -⟩ := ridge_diag (J := fisherInfo (fun b i =>
        vonMises (r.mu + 2 * arctan (∑ k, X i k * b k)) r.kappa) r.params.beta)
      (w := fun _ : Fin n => r.kappa * (besselI 1 r.kappa / besselI 0 r.kappa)) (fun _ => kA_nonneg hk)
      (by norm_num : (0 : ℝ) < 1 / 10 ^ 8) (fun a b => info_beta r.mu (fun _ => r.kappa) r.params.beta a b) 0
    rw [← h1]
    simp only [Finset.univ_unique, Fin.default_eq_zero, Finset.sum_singleton, gMat, linPred, hX, one_mul, mul_one,
      Finset.sum_const, Finset.card_univ, Fintype.card_fin, nsmul_eq_mul] at h2
    generalize r.kappa * (besselI 1 r.kappa / besselI 0 r.kappa) = w at h2 ⊢
    have hd : 0 < 1 + r.params.beta 0 ^ 2 := by positivity
    have h4 : u 0 ≥ n * (w * (2 / (1 + r.params.beta 0 ^ 2) * u 0) ^ 2) := by
      have : 0 ≤ 1 / 10 ^ 8 * u 0 ^ 2 := by positivity
      linarith
    rw [div_mul_eq_mul_div, div_pow, ← mul_div_assoc, ← mul_div_assoc, ge_iff_le, div_le_iff₀ (by positivity)] at h4
    refine le_of_mul_le_mul_left ?_ h3
    nlinarith

/-! ## The standard errors of the mean direction and of the concentration -/

private lemma info_kappa (m : Fin n → ℝ) {k : ℝ} (hk : k ≠ 0) :
    fisherInfo (fun (e : Unit → ℝ) i => vonMises (m i) (e ())) (fun _ => k) () ()
      = n * a1Prime (fun k => besselI 1 k / besselI 0 k) k := by
  rw [fisher_concentration (m := m) (kappa := fun e _ => e ()) (g := fun _ _ => 1) (fun i a => by
    simp only [Function.update_self]; exact hasDerivAt_id k) (fun _ => hk)]
  simp

private lemma info_mu (f kappa : Fin n → ℝ) (mu : ℝ) :
    fisherInfo (fun (e : Unit → ℝ) i => vonMises (e () + f i) (kappa i)) (fun _ => mu) () ()
      = ∑ i, kappa i * (besselI 1 (kappa i) / besselI 0 (kappa i)) := by
  rw [fisher_location (m := fun e i => e () + f i) (g := fun _ _ => 1) (fun i a => by
    simp only [Function.update_self]; exact (hasDerivAt_id mu).add_const _)]
  simp

private lemma sq_inv_sqrt {x : ℝ} (hx : 0 < x) : √(1 / x) ^ 2 = 1 / x := sq_sqrt (by positivity)

private lemma sq_div_sqrt {x : ℝ} (hx : 0 < x) : (1 / √x) ^ 2 = 1 / x := by rw [div_pow, one_pow, sq_sqrt hx.le]

private lemma max_pos' (x : ℝ) : 0 < max x (1 / 10 ^ 12) := lt_max_of_lt_right (by norm_num)

/-- **C117.** Model "mean": the squared standard error of the concentration is the reciprocal of its Fisher information
(kept above `10⁻¹²`), that of `mu` the reciprocal of the information about `mu` alone times `(n - p)/n`. No standard error
of the concentration is available exactly when it is estimated as zero. -/
theorem C117_mean_scalar (r : CLResult (CLParams p) ℝ) (hn : 0 < n) :
    ((meanSE X (fun k => besselI 1 k / besselI 0 k) inv r).kappa = none ↔ r.kappa = 0) ∧
    (∀ s, (meanSE X (fun k => besselI 1 k / besselI 0 k) inv r).kappa = some s → s ^ 2 = 1 / max
      (fisherInfo (fun (e : Unit → ℝ) (i : Fin n) =>
        vonMises (r.mu + 2 * arctan (∑ k, X i k * r.params.beta k)) (e ())) (fun _ => r.kappa) () ()) (1 / 10 ^ 12)) ∧
    (meanSE X (fun k => besselI 1 k / besselI 0 k) inv r).mu ^ 2 = 1 / max (((n : ℝ) - p) / n *
      fisherInfo (fun (e : Unit → ℝ) (i : Fin n) =>
        vonMises (e () + 2 * arctan (∑ k, X i k * r.params.beta k)) r.kappa) (fun _ => r.mu) () ()) (1 / 10 ^ 12) := by
  unfold meanSE
  refine ⟨?_, ?_, ?_⟩
  · simp only
    split <;> simp [*]
  · intro s hs
    simp only at hs
    split at hs
    · exact absurd hs (by simp)
    · rename_i hk
      rw [info_kappa _ hk]
      simp only [Option.some.injEq] at hs
      rw [← hs, sq_inv_sqrt (max_pos' _)]
      unfold a1Prime
      ring_nf
  · simp only
    rw [sq_div_sqrt (max_pos' _), info_mu (fun i => 2 * arctan (∑ k, X i k * r.params.beta k)) (fun _ => r.kappa)]
    have : (n : ℝ) ≠ 0 := by positivity
    simp only [Finset.sum_const, Finset.card_univ, Fintype.card_fin, nsmul_eq_mul]
    congr 2
    field_simp

/-- **C117.** Models "kappa" and "mixed": the squared standard error of the `i`th concentration is the reciprocal of the
Fisher information about the concentration of `n` observations which all have it, that of `mu` the reciprocal of the
information about `mu` less one half (both kept above `10⁻¹²`). -/
theorem C117_scalar (r : CLResult (CLParams p) (Fin n → ℝ)) (hk : ∀ i, r.kappa i ≠ 0) (se : KappaSE n p)
    (hse : se = kappaSE X (fun k => besselI 1 k / besselI 0 k) inv r ∨
      se = (mixedSE X (fun k => besselI 1 k / besselI 0 k) inv r).toKappaSE) (f : Fin n → ℝ) :
    (∀ i, se.kappa i ^ 2 = 1 / max (fisherInfo (fun (e : Unit → ℝ) (j : Fin n) => vonMises (r.mu + f j) (e ()))
      (fun _ => r.kappa i) () ()) (1 / 10 ^ 12)) ∧
    se.mu ^ 2 = 1 / max (fisherInfo (fun (e : Unit → ℝ) (j : Fin n) => vonMises (e () + f j) (r.kappa j))
      (fun _ => r.mu) () () - 1 / 2) (1 / 10 ^ 12) := by
  have h1 : ∀ i, se.kappa i = √(1 / max (n * a1Prime (fun k => besselI 1 k / besselI 0 k) (r.kappa i)) (1 / 10 ^ 12)) := by
    intro i
    rcases hse with h | h
    · rw [h]; rfl
    · rw [h]
      simp only [mixedSE, a1Prime]
      ring_nf
  have h2 : se.mu = 1 / √(max ((∑ i, r.kappa i * (besselI 1 (r.kappa i) / besselI 0 (r.kappa i))) - 1 / 2) (1 / 10 ^ 12)) := by
    rcases hse with h | h <;> rw [h] <;> rfl
  refine ⟨fun i => ?_, ?_⟩
  · rw [h1, info_kappa _ (hk i), sq_inv_sqrt (max_pos' _)]
  · rw [h2, info_mu, sq_div_sqrt (max_pos' _)]

/-! ## Examples -/

/-- `np.linalg.inv` as an exact inverse meets the hypothesis. -/
example : ∀ (q : ℕ) (A : Matrix (Fin q) (Fin q) ℝ), IsUnit A.det →
    (fun (_ : ℕ) (A : Matrix (Fin _) (Fin _) ℝ) => A⁻¹) q A = A⁻¹ := fun _ _ _ => rfl

/-- Two observations with predictors 0 and 1: the joint information is regular. -/
example : IsUnit (fisherInfo (fun (e : Option (Fin 1) → ℝ) (i : Fin 2) =>
    vonMises (e none + 2 * arctan (∑ k, (fun (i : Fin 2) (_ : Fin 1) => (i : ℝ)) i k * e (some k))) 1)
      (fun o => o.elim 0 0)).det := by
  rw [isUnit_iff_ne_zero]
  intro h0
  obtain ⟨v, hv, h1⟩ := Matrix.exists_mulVec_eq_zero_iff.2 h0
  apply hv
  have h2 := form_eq (fun a b => info_joint (X := fun (i : Fin 2) (_ : Fin 1) => (i : ℝ)) 0 (fun _ => 1) 0 a b) v v
  rw [h1] at h2
  have hw : 0 < besselI 1 1 / besselI 0 1 := div_pos (besselI_pos 1 one_pos) (besselI_zero_pos 1)
  simp only [Pi.zero_apply, mul_zero, Finset.sum_const_zero, Fin.sum_univ_two, Fintype.sum_option, Option.elim, gMat,
    linPred, Finset.univ_unique, Fin.default_eq_zero, Finset.sum_singleton, Fin.val_zero, Fin.val_one, Nat.cast_zero,
    Nat.cast_one, one_mul, zero_mul, add_zero, mul_one, zero_div] at h2
  norm_num at h2
  have h3 : v none = 0 ∧ v (some 0) = 0 := by
    have ha : (besselI 1 1 / besselI 0 1) * (v none ^ 2 + (v none + 2 * v (some 0)) ^ 2) = 0 := by linarith
    have hb := (mul_eq_zero.1 ha).resolve_left hw.ne'
    have hc : v none = 0 := by
      have : v none ^ 2 = 0 := by linarith [sq_nonneg (v none), sq_nonneg (v none + 2 * v (some 0))]
      simpa using this
    have hd : v none + 2 * v (some 0) = 0 := by
      have : (v none + 2 * v (some 0)) ^ 2 = 0 := by linarith [sq_nonneg (v none), sq_nonneg (v none + 2 * v (some 0))]
      simpa using this
    exact ⟨hc, by linarith⟩
  funext a
  match a with
  | none => exact h3.1
  | some ⟨0, _⟩ => exact h3.2

end Verif.Props
