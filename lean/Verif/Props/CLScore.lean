import Verif.Props.CLReg
import Verif.Lemmas.NestedLS

/-! # C92: what the fixed points of the circular-linear regression loop solve -/

set_option autoImplicit false

namespace Verif.Props

open Real Verif Verif.Spec

variable {n p : ℕ} {theta : Fin n → ℝ} {X : Fin n → Fin p → ℝ} {A1 i0 : ℝ → ℝ}
  {solve : ∀ q : ℕ, Matrix (Fin q) (Fin q) ℝ → (Fin q → ℝ) → (Fin q → ℝ)}

private lemma mulVec_gram (w : Fin n → ℝ) {q : ℕ} (G : Fin n → Fin q → ℝ) (v : Fin q → ℝ) (j : Fin q) :
    (gram w G).mulVec v j = ∑ i, G i j * (w i * ∑ k, G i k * v k) := by
  unfold gram Matrix.mulVec dotProduct
  simp only [Matrix.of_apply, Finset.sum_mul]
  rw [Finset.sum_comm]
  refine Finset.sum_congr rfl fun i _ => ?_
  rw [Finset.mul_sum, Finset.mul_sum]
  exact Finset.sum_congr rfl fun k _ => by ring

private lemma mulVec_ridge (q : ℕ) (v : Fin q → ℝ) (j : Fin q) : (ridge q).mulVec v j = 1 / 10 ^ 8 * v j := by
  unfold ridge
  rw [Matrix.smul_mulVec, Matrix.one_mulVec]
  rfl

/-- The matrices of the updates are regular. -/
private lemma isUnit_gram_ridge (w : Fin n → ℝ) (hw : ∀ i, 0 ≤ w i) {q : ℕ} (G : Fin n → Fin q → ℝ) :
    IsUnit (gram w G + ridge q).det := by
  rw [isUnit_iff_ne_zero]
  intro h0
  obtain ⟨v, hv, h1⟩ := Matrix.exists_mulVec_eq_zero_iff.2 h0
  apply hv
  have h2 : ∑ j, v j * (gram w G + ridge q).mulVec v j = 0 := by rw [h1]; simp
  have h3 : ∀ j, (gram w G + ridge q).mulVec v j = ∑ i, G i j * (w i * ∑ k, G i k * v k) + 1 / 10 ^ 8 * v j := by
    intro j
    rw [Matrix.add_mulVec, Pi.add_apply, mulVec_gram, mulVec_ridge]
  simp only [h3, mul_add, Finset.sum_add_distrib] at h2
  have h4 : ∑ j, v j * ∑ i, G i j * (w i * ∑ k, G i k * v k) = ∑ i, w i * (∑ k, G i k * v k) ^ 2 := by
    simp only [Finset.mul_sum]
    rw [Finset.sum_comm]
    refine Finset.sum_congr rfl fun i _ => ?_
    rw [sq, Finset.sum_mul_sum, Finset.mul_sum]
    refine Finset.sum_congr rfl fun j _ => ?_
    rw [Finset.mul_sum]
    exact Finset.sum_congr rfl fun k _ => by ring
  have h5 : 0 ≤ ∑ i, w i * (∑ k, G i k * v k) ^ 2 :=
    Finset.sum_nonneg fun i _ => mul_nonneg (hw i) (sq_nonneg _)
  have h6 : ∑ j, v j * (1 / 10 ^ 8 * v j) = 0 := by
    refine le_antisymm ?_ (Finset.sum_nonneg fun j _ => by nlinarith [sq_nonneg (v j)])
    rw [h4] at h2
    linarith
  funext j
  have h7 := (Finset.sum_eq_zero_iff_of_nonneg fun j _ => by nlinarith [sq_nonneg (v j)]).1 h6 j (Finset.mem_univ j)
  have h8 : v j * v j = 0 := by nlinarith
  simpa using h8

private lemma solve_eq_iff (hs : ∀ (q : ℕ) (A : Matrix (Fin q) (Fin q) ℝ) (b : Fin q → ℝ), IsUnit A.det →
    A.mulVec (solve q A b) = b) {q : ℕ} {A : Matrix (Fin q) (Fin q) ℝ} (hA : IsUnit A.det) (b v : Fin q → ℝ) :
    solve q A b = v ↔ A.mulVec v = b := by
  constructor
  · rintro rfl; exact hs q A b hA
  · intro h
    have h1 := hs q A b hA
    rw [← h] at h1
    have h2 := congrArg (A⁻¹.mulVec) h1
    rw [Matrix.mulVec_mulVec, Matrix.mulVec_mulVec, Matrix.nonsing_inv_mul _ hA, Matrix.one_mulVec,
      Matrix.one_mulVec, h] at h2
    exact h2

private lemma lin_update (i : Fin n) (beta : Fin p → ℝ) (j : Fin p) (t : ℝ) :
    ∑ k, X i k * Function.update beta j t k = ∑ k, X i k * beta k + X i j * (t - beta j) := by
  have : ∀ k, X i k * Function.update beta j t k = X i k * beta k + if k = j then X i j * (t - beta j) else 0 := by
    intro k
    by_cases hk : k = j
    · subst hk; simp; ring
    · simp [hk]
  simp only [this, Finset.sum_add_distrib, Finset.sum_ite_eq', Finset.mem_univ, if_true]

/-- The derivative of the log-likelihood in one coefficient of the mean direction. -/
private lemma deriv_beta (mu : ℝ) (kappa : Fin n → ℝ) (beta : Fin p → ℝ) (j : Fin p) :
    HasDerivAt (fun t => vmLogLik i0 theta X mu kappa (Function.update beta j t))
      (∑ i, gMat X beta i j * (kappa i * sin (rawDev theta X beta i - mu))) (beta j) := by
  unfold vmLogLik
  refine HasDerivAt.fun_sum fun i _ => ?_
  have hl : HasDerivAt (fun t => ∑ k, X i k * Function.update beta j t k) (X i j) (beta j) := by
    simp only [lin_update]
    have := ((hasDerivAt_id (beta j)).sub_const (beta j)).const_mul (X i j)
    simpa using this.const_add (∑ k, X i k * beta k)
  have hl0 : ∑ k, X i k * Function.update beta j (beta j) k = linPred X beta i := by
    rw [Function.update_eq_self]; rfl
  have h1 := (((hl.arctan.const_mul 2).const_add mu).const_sub (theta i)).cos.const_mul (kappa i)
  have h2 := h1.sub_const (log (i0 (kappa i)))
  rw [hl0] at h2
  convert h2 using 1
  unfold gMat rawDev
  have hpos : 1 + linPred X beta i ^ 2 ≠ 0 := by positivity
  rw [show theta i - (mu + 2 * arctan (linPred X beta i)) = theta i - 2 * arctan (linPred X beta i) - mu by ring]
  field_simp

private lemma hasDerivAt_iff {f : ℝ → ℝ} {f' x a : ℝ} (h : HasDerivAt f f' x) : HasDerivAt f a x ↔ f' = a :=
  ⟨fun h' => h.unique h', fun he => he ▸ h⟩

/-- Model "mean": the coefficients are left unchanged by the update exactly when they solve the score equations
of the von Mises log-likelihood with a ridge penalty of `10⁻⁸` (`∂ℓ/∂βⱼ = 10⁻⁸ βⱼ`). -/
theorem C92_mean (hs : ∀ (q : ℕ) (A : Matrix (Fin q) (Fin q) ℝ) (b : Fin q → ℝ), IsUnit A.det →
      A.mulVec (solve q A b) = b)
    {c : CLParams p} {s : CLStep (CLParams p) ℝ} (h : meanStep theta X A1 i0 solve c = .ok (some s))
    (hk : 0 ≤ s.kappa * A1 s.kappa) :
    s.next.beta = c.beta ↔ ∀ j, HasDerivAt
      (fun t => vmLogLik i0 theta X s.mu (fun _ => s.kappa) (Function.update c.beta j t))
      (1 / 10 ^ 8 * c.beta j) (c.beta j) := by
  unfold meanStep at h
  simp only [Except.ok.injEq, Option.map_eq_some_iff] at h
  obtain ⟨k, -, rfl⟩ := h
  simp only at hk ⊢
  have hg : (k * A1 k) • gram (fun _ => 1) (gMat X c.beta) = gram (fun _ : Fin n => k * A1 k) (gMat X c.beta) := by
    ext a b
    unfold gram
    simp only [Matrix.smul_apply, Matrix.of_apply, smul_eq_mul, Finset.mul_sum]
    exact Finset.sum_congr rfl fun i _ => by ring
  rw [hg, solve_eq_iff hs (isUnit_gram_ridge _ (fun _ => hk) _), funext_iff]
  refine forall_congr' fun j => ?_
  rw [hasDerivAt_iff (deriv_beta _ _ c.beta j), Matrix.add_mulVec, Pi.add_apply, mulVec_ridge, mulVec_gram,
    mulVec_gram]
  have e : ∑ i, gMat X c.beta i j * (k * A1 k * ∑ l, gMat X c.beta i l * c.beta l)
      = k * A1 k * ∑ i, gMat X c.beta i j * (1 * ∑ l, gMat X c.beta i l * c.beta l) := by
    rw [Finset.mul_sum]
    exact Finset.sum_congr rfl fun i _ => by ring
  rw [e]
  constructor
  · intro h1; linarith
  · intro h1; linarith

/-- The derivative of the log-likelihood along a direction of the coefficients of the concentration. -/
private lemma deriv_kappa (hi : ∀ k > 0, HasDerivAt (fun x => log (i0 x)) (A1 k) k) (mu : ℝ) (beta : Fin p → ℝ)
    (eta : Fin n → ℝ) (d : Fin n → ℝ) (t0 : ℝ) :
    HasDerivAt (fun t => vmLogLik i0 theta X mu (fun i => exp (eta i + d i * (t - t0))) beta)
      (∑ i, d i * (exp (eta i) * (cos (rawDev theta X beta i - mu) - A1 (exp (eta i))))) t0 := by
  unfold vmLogLik
  refine HasDerivAt.fun_sum fun i _ => ?_
  have hl : HasDerivAt (fun t => eta i + d i * (t - t0)) (d i) t0 := by
    have := ((hasDerivAt_id t0).sub_const t0).const_mul (d i)
    simpa using this.const_add (eta i)
  have he := hl.exp
  have hz : eta i + d i * (t0 - t0) = eta i := by ring
  have h1 : HasDerivAt (fun t => log (i0 (exp (eta i + d i * (t - t0)))))
      (A1 (exp (eta i + d i * (t0 - t0))) * (exp (eta i + d i * (t0 - t0)) * d i)) t0 :=
    HasDerivAt.comp (h₂ := fun x => log (i0 x)) t0 (hi _ (exp_pos _)) he
  have h2 := (he.mul_const (cos (theta i - (mu + 2 * arctan (∑ j, X i j * beta j))))).fun_sub h1
  rw [hz] at h2
  convert h2 using 1
  unfold rawDev linPred
  rw [show theta i - (mu + 2 * arctan (∑ j, X i j * beta j)) = theta i - 2 * arctan (∑ j, X i j * beta j) - mu by ring]
  ring

private lemma gamma_zero (hs : ∀ (q : ℕ) (A : Matrix (Fin q) (Fin q) ℝ) (b : Fin q → ℝ), IsUnit A.det →
      A.mulVec (solve q A b) = b) (hA : ∀ k > 0, 0 < a1Prime A1 k) {kappa dev : Fin n → ℝ}
    (hk : ∀ i, 0 < kappa i) {u : Fin (p + 1) → ℝ} (h : gammaUpdate X A1 solve kappa dev = .ok u) :
    u = 0 ↔ (∑ i, kappa i * (cos (dev i) - A1 (kappa i)) = 0 ∧
      ∀ j, ∑ i, X i j * (kappa i * (cos (dev i) - A1 (kappa i))) = 0) := by
  unfold gammaUpdate at h
  split_ifs at h
  simp only [Except.ok.injEq] at h
  rw [← h, solve_eq_iff hs (isUnit_gram_ridge _ (fun i => mul_nonneg (sq_nonneg _) (hA _ (hk i)).le) _),
    Matrix.mulVec_zero, eq_comm, funext_iff, Fin.forall_fin_succ]
  have e : ∀ i, kappa i ^ 2 * a1Prime A1 (kappa i)
      * ((cos (dev i) - A1 (kappa i)) / (a1Prime A1 (kappa i) * kappa i))
      = kappa i * (cos (dev i) - A1 (kappa i)) := by
    intro i
    have h1 := (hA _ (hk i)).ne'
    have h2 := (hk i).ne'
    field_simp
  simp only [e, withOnes, Fin.cons_zero, Fin.cons_succ, one_mul, Pi.zero_apply]

private lemma gamma_score (hi : ∀ k > 0, HasDerivAt (fun x => log (i0 x)) (A1 k) k) (mu : ℝ) (beta : Fin p → ℝ)
    (alpha : ℝ) (gamma : Fin p → ℝ) :
    (∑ i, kappaOf X alpha gamma i * (cos (rawDev theta X beta i - mu) - A1 (kappaOf X alpha gamma i)) = 0 ∧
      ∀ j, ∑ i, X i j * (kappaOf X alpha gamma i *
        (cos (rawDev theta X beta i - mu) - A1 (kappaOf X alpha gamma i))) = 0) ↔
    (HasDerivAt (fun t => vmLogLik i0 theta X mu (fun i => exp (t + ∑ k, X i k * gamma k)) beta) 0 alpha ∧
      ∀ j, HasDerivAt (fun t => vmLogLik i0 theta X mu
        (fun i => exp (alpha + ∑ k, X i k * Function.update gamma j t k)) beta) 0 (gamma j)) := by
  have h1 := deriv_kappa (theta := theta) (X := X) hi mu beta (fun i => alpha + ∑ k, X i k * gamma k) (fun _ => 1) alpha
  have e1 : (fun t => vmLogLik i0 theta X mu (fun i => exp (t + ∑ k, X i k * gamma k)) beta)
      = fun t => vmLogLik i0 theta X mu (fun i => exp (alpha + ∑ k, X i k * gamma k + 1 * (t - alpha))) beta := by
    funext t
    congr 1
    funext i
    congr 1
    ring
  rw [e1, hasDerivAt_iff h1]
  have h2 : ∀ j, HasDerivAt (fun t => vmLogLik i0 theta X mu
        (fun i => exp (alpha + ∑ k, X i k * Function.update gamma j t k)) beta) 0 (gamma j) ↔
      ∑ i, X i j * (exp (alpha + ∑ k, X i k * gamma k) * (cos (rawDev theta X beta i - mu)
        - A1 (exp (alpha + ∑ k, X i k * gamma k)))) = 0 := by
    intro j
    have h3 := deriv_kappa (theta := theta) (X := X) hi mu beta (fun i => alpha + ∑ k, X i k * gamma k)
      (fun i => X i j) (gamma j)
    rw [← hasDerivAt_iff h3]
    simp only [lin_update, add_assoc]
  simp only [h2, one_mul, kappaOf, linPred]

/-- Model "kappa": the coefficients are left unchanged by the update exactly when the derivatives of the
log-likelihood in `alpha` and in every component of `gamma` vanish. `A1` is the derivative of `log I₀` and
strictly increasing, as for the Bessel functions. -/
theorem C92_kappa (hs : ∀ (q : ℕ) (A : Matrix (Fin q) (Fin q) ℝ) (b : Fin q → ℝ), IsUnit A.det →
      A.mulVec (solve q A b) = b) (hi : ∀ k > 0, HasDerivAt (fun x => log (i0 x)) (A1 k) k)
    (hA : ∀ k > 0, 0 < 1 - A1 k / k - A1 k ^ 2) {c : CLParams p} {s : CLStep (CLParams p) (Fin n → ℝ)}
    (h : kappaStep theta X A1 i0 solve c = .ok (some s)) :
    (s.next.alpha = c.alpha ∧ s.next.gamma = c.gamma) ↔
      (HasDerivAt (fun t => vmLogLik i0 theta X s.mu (fun i => exp (t + ∑ k, X i k * c.gamma k)) 0) 0 c.alpha ∧
      ∀ j, HasDerivAt (fun t => vmLogLik i0 theta X s.mu
        (fun i => exp (c.alpha + ∑ k, X i k * Function.update c.gamma j t k)) 0) 0 (c.gamma j)) := by
  rw [← gamma_score hi]
  unfold kappaStep at h
  simp only at h
  set mu := arctan2 (∑ i, kappaOf X c.alpha c.gamma i * sin (theta i))
    (∑ i, kappaOf X c.alpha c.gamma i * cos (theta i)) with hmu
  cases hg : gammaUpdate X A1 solve (kappaOf X c.alpha c.gamma) (fun i => theta i - mu) with
  | error e => rw [hg] at h; simp [Except.map] at h
  | ok u =>
    rw [hg] at h
    simp only [Except.map, Except.ok.injEq, Option.some.injEq] at h
    subst h
    simp only
    have hz := gamma_zero hs hA (kappa := kappaOf X c.alpha c.gamma) (fun i => exp_pos _) hg
    have hr : ∀ i, rawDev theta X 0 i = theta i := by intro i; simp [rawDev, linPred]
    simp only [hr]
    rw [← hz]
    constructor
    · rintro ⟨h1, h2⟩
      funext j
      refine Fin.cases ?_ (fun j => ?_) j
      · simpa using h1
      · have := congrFun h2 j
        simpa using this
    · rintro rfl
      exact ⟨by simp, by funext j; simp⟩

/-- Model "mixed", the concentration part: as for the model "kappa", at the deviations from the fitted
means. -/
theorem C92_mixed_gamma (hs : ∀ (q : ℕ) (A : Matrix (Fin q) (Fin q) ℝ) (b : Fin q → ℝ), IsUnit A.det →
      A.mulVec (solve q A b) = b) (hi : ∀ k > 0, HasDerivAt (fun x => log (i0 x)) (A1 k) k)
    (hA : ∀ k > 0, 0 < 1 - A1 k / k - A1 k ^ 2) {c : CLParams p} {s : CLStep (CLParams p) (Fin n → ℝ)}
    (h : mixedStep theta X A1 i0 solve c = .ok (some s)) :
    (s.next.alpha = c.alpha ∧ s.next.gamma = c.gamma) ↔
      (HasDerivAt (fun t => vmLogLik i0 theta X s.mu (fun i => exp (t + ∑ k, X i k * c.gamma k)) c.beta) 0 c.alpha ∧
      ∀ j, HasDerivAt (fun t => vmLogLik i0 theta X s.mu
        (fun i => exp (c.alpha + ∑ k, X i k * Function.update c.gamma j t k)) c.beta) 0 (c.gamma j)) := by
  rw [← gamma_score hi]
  unfold mixedStep at h
  simp only at h
  set mu := arctan2 (∑ i, kappaOf X c.alpha c.gamma i * sin (rawDev theta X c.beta i))
    (∑ i, kappaOf X c.alpha c.gamma i * cos (rawDev theta X c.beta i)) with hmu
  cases hg : gammaUpdate X A1 solve (kappaOf X c.alpha c.gamma) (fun i => rawDev theta X c.beta i - mu) with
  | error e => rw [hg] at h; simp [Except.map] at h
  | ok u =>
    rw [hg] at h
    simp only [Except.map, Except.ok.injEq, Option.some.injEq] at h
    subst h
    simp only
    rw [← gamma_zero hs hA (kappa := kappaOf X c.alpha c.gamma) (fun i => exp_pos _) hg]
    constructor
    · rintro ⟨h1, h2⟩
      funext j
      refine Fin.cases ?_ (fun j => ?_) j
      · simpa using h1
      · have := congrFun h2 j
        simpa using this
    · rintro rfl
      exact ⟨by simp, by funext j; simp⟩

/-- Model "mixed", a perfect fit: if every response is exactly `mu + 2 arctan(xᵢ·beta)` then the update of
`beta` solves `(GᵀWG + 10⁻⁸) beta' = GᵀWG beta`; without the ridge term `beta` would stay. -/
theorem C92_mixed_perfect (hs : ∀ (q : ℕ) (A : Matrix (Fin q) (Fin q) ℝ) (b : Fin q → ℝ), IsUnit A.det →
      A.mulVec (solve q A b) = b) (hA : ∀ k > 0, 0 ≤ A1 k) {c : CLParams p} {s : CLStep (CLParams p) (Fin n → ℝ)}
    (h : mixedStep theta X A1 i0 solve c = .ok (some s))
    (hfit : ∀ i, SameDir (theta i) (s.mu + 2 * arctan (∑ j, X i j * c.beta j))) (j : Fin p) :
    ∑ i, gMat X c.beta i j * (s.kappa i * A1 (s.kappa i) * ∑ l, gMat X c.beta i l * (c.beta l - s.next.beta l))
      = 1 / 10 ^ 8 * s.next.beta j := by
  unfold mixedStep at h
  simp only at h
  set mu := arctan2 (∑ i, kappaOf X c.alpha c.gamma i * sin (rawDev theta X c.beta i))
    (∑ i, kappaOf X c.alpha c.gamma i * cos (rawDev theta X c.beta i)) with hmu
  cases hg : gammaUpdate X A1 solve (kappaOf X c.alpha c.gamma) (fun i => rawDev theta X c.beta i - mu) with
  | error e => rw [hg] at h; simp [Except.map] at h
  | ok u =>
    rw [hg] at h
    simp only [Except.map, Except.ok.injEq, Option.some.injEq] at h
    subst h
    simp only at hfit ⊢
    set k := kappaOf X c.alpha c.gamma with hk
    have hkp : ∀ i, 0 < k i := fun i => exp_pos _
    have hdet := isUnit_gram_ridge (fun i => k i * A1 (k i)) (fun i => mul_nonneg (hkp i).le (hA _ (hkp i)))
      (gMat X c.beta)
    have hsol := congrFun (hs p _ (fun j => ∑ i, gMat X c.beta i j * (k i * A1 (k i) * sin (theta i - mu))) hdet) j
    set b' := solve p (gram (fun i => k i * A1 (k i)) (gMat X c.beta) + ridge p)
      (fun j => ∑ i, gMat X c.beta i j * (k i * A1 (k i) * sin (theta i - mu))) with hb'
    rw [Matrix.add_mulVec, Pi.add_apply, mulVec_gram, mulVec_ridge] at hsol
    have hsin : ∀ i, sin (theta i - mu) = ∑ l, gMat X c.beta i l * c.beta l := by
      intro i
      have h1 : SameDir (theta i - mu) (2 * arctan (linPred X c.beta i)) := by
        have := (hfit i).sub (CongMod.refl (2 * π) mu)
        rwa [add_sub_cancel_left] at this
      rw [sin_eq_of_sameDir h1, sin_two_mul, sin_arctan, cos_arctan]
      set e := linPred X c.beta i with he
      have hpos : 0 < 1 + e ^ 2 := by positivity
      have hsq : sqrt (1 + e ^ 2) * sqrt (1 + e ^ 2) = 1 + e ^ 2 := Real.mul_self_sqrt hpos.le
      have hr : ∑ l, gMat X c.beta i l * c.beta l = 2 * e / (1 + e ^ 2) := by
        have h2 : ∀ l, gMat X c.beta i l * c.beta l = 2 / (1 + e ^ 2) * (X i l * c.beta l) := by
          intro l
          unfold gMat
          rw [← he]; ring
        simp only [h2]
        rw [← Finset.mul_sum, show ∑ l, X i l * c.beta l = e from he.symm]; ring
      rw [hr, mul_assoc, mul_div_assoc', mul_one, div_div, hsq, mul_div_assoc']
    simp only [hsin] at hsol
    have e1 : ∀ i, ∑ l, gMat X c.beta i l * (c.beta l - b' l)
        = ∑ l, gMat X c.beta i l * c.beta l - ∑ l, gMat X c.beta i l * b' l := by
      intro i
      rw [← Finset.sum_sub_distrib]
      exact Finset.sum_congr rfl fun l _ => by ring
    simp only [e1, mul_sub, Finset.sum_sub_distrib]
    linarith

private lemma mixed_fields {c : CLParams p} {s : CLStep (CLParams p) (Fin n → ℝ)}
    (h : mixedStep theta X A1 i0 solve c = .ok (some s)) :
    s.kappa = kappaOf X c.alpha c.gamma ∧
    s.mu = arctan2 (∑ i, kappaOf X c.alpha c.gamma i * sin (rawDev theta X c.beta i))
      (∑ i, kappaOf X c.alpha c.gamma i * cos (rawDev theta X c.beta i)) ∧
    s.next.beta = solve p (gram (fun i => kappaOf X c.alpha c.gamma i * A1 (kappaOf X c.alpha c.gamma i))
      (gMat X c.beta) + ridge p) fun j => ∑ i, gMat X c.beta i j *
        (kappaOf X c.alpha c.gamma i * A1 (kappaOf X c.alpha c.gamma i) * sin (theta i - s.mu)) := by
  unfold mixedStep at h
  simp only at h
  generalize gammaUpdate X A1 solve _ _ = g at h
  cases g with
  | error e => simp [Except.map] at h
  | ok u =>
    simp only [Except.map, Except.ok.injEq, Option.some.injEq] at h
    subst h
    exact ⟨rfl, rfl, rfl⟩

/-- Model "mixed", the direction part: its fixed points do not solve the score equations. Four responses
scattered symmetrically by `π/3` about the directions `2 arctan(±1)`: the derivatives of the log-likelihood in
`mu` and in `beta` vanish at `beta = 1`, but the update moves `beta` to at most one half. The update uses
`sin(theta - mu)` where the deviation from the fitted mean belongs. -/
theorem C92_mixed_fails (hs : ∀ (q : ℕ) (A : Matrix (Fin q) (Fin q) ℝ) (b : Fin q → ℝ), IsUnit A.det →
      A.mulVec (solve q A b) = b) (hA : 4 / 10 ≤ A1 1 ∧ A1 1 ≤ 1 / 2) :
    ∃ (theta : Fin 4 → ℝ) (X : Fin 4 → Fin 1 → ℝ) (c : CLParams 1) (s : CLStep (CLParams 1) (Fin 4 → ℝ)),
      mixedStep theta X A1 i0 solve c = .ok (some s) ∧ c.beta 0 = 1 ∧
      HasDerivAt (fun t => vmLogLik i0 theta X s.mu s.kappa (Function.update c.beta 0 t)) 0 (c.beta 0) ∧
      s.next.beta 0 ≤ 1 / 2 := by
  let theta : Fin 4 → ℝ := ![π / 2 + π / 3, π / 2 - π / 3, -(π / 2) + π / 3, -(π / 2) - π / 3]
  let X : Fin 4 → Fin 1 → ℝ := ![fun _ => 1, fun _ => 1, fun _ => -1, fun _ => -1]
  let c : CLParams 1 := ⟨fun _ => 1, 0, 0⟩
  have hk : kappaOf X c.alpha c.gamma = fun _ => 1 := by
    funext i; simp [kappaOf, linPred, c]
  have hl : linPred X c.beta = ![1, 1, -1, -1] := by
    funext i; fin_cases i <;> simp [linPred, c, X]
  have hraw : rawDev theta X c.beta = ![π / 3, -(π / 3), π / 3, -(π / 3)] := by
    funext i
    unfold rawDev
    rw [hl]
    fin_cases i <;> simp [theta, arctan_one] <;> ring
  have hG : gMat X c.beta = ![fun _ => 1, fun _ => 1, fun _ => -1, fun _ => -1] := by
    funext i j
    unfold gMat
    rw [hl]
    fin_cases i <;> simp [X] <;> norm_num
  have hmu : arctan2 (∑ i, (1 : ℝ) * sin ((![π / 3, -(π / 3), π / 3, -(π / 3)] : Fin 4 → ℝ) i))
      (∑ i, (1 : ℝ) * cos ((![π / 3, -(π / 3), π / 3, -(π / 3)] : Fin 4 → ℝ) i)) = 0 := by
    have h1 : ∑ i, (1 : ℝ) * sin ((![π / 3, -(π / 3), π / 3, -(π / 3)] : Fin 4 → ℝ) i) = 0 := by
      simp [Fin.sum_univ_four]
    have h2 : ∑ i, (1 : ℝ) * cos ((![π / 3, -(π / 3), π / 3, -(π / 3)] : Fin 4 → ℝ) i) = 2 := by
      simp [Fin.sum_univ_four]; norm_num
    rw [h1, h2]
    unfold arctan2
    have : (⟨2, 0⟩ : ℂ) = ((2 : ℝ) : ℂ) := by apply Complex.ext <;> simp
    rw [this, Complex.arg_ofReal_of_nonneg (by norm_num)]
  have hp : 1 / 4 ≤ a1Prime A1 1 := by unfold a1Prime; nlinarith [hA.1, hA.2]
  have hnc : ¬ ∃ i : Fin 4, isclose (a1Prime A1 ((fun _ => (1 : ℝ)) i)) 0 rtolDefault atolDefault := by
    rintro ⟨i, hi⟩
    simp only at hi
    rw [isclose_zero _ _ _ (by linarith)] at hi
    unfold atolDefault at hi
    norm_num at hi
    linarith
  have hex : ∃ s, mixedStep theta X A1 i0 solve c = .ok (some s) := by
    unfold mixedStep gammaUpdate
    simp only [hk, if_neg hnc]
    exact ⟨_, rfl⟩
  obtain ⟨s, hst⟩ := hex
  obtain ⟨f1, f2, f3⟩ := mixed_fields hst
  rw [hk, hraw, hmu] at f2
  rw [hk] at f1
  rw [hk, hG, f2] at f3
  refine ⟨theta, X, c, s, hst, rfl, ?_, ?_⟩
  · have hd := deriv_beta (i0 := i0) (theta := theta) (X := X) s.mu s.kappa c.beta 0
    have h0 : ∑ i, gMat X c.beta i 0 * (s.kappa i * sin (rawDev theta X c.beta i - s.mu)) = 0 := by
      rw [hG, hraw, f1, f2]
      simp [Fin.sum_univ_four]
    rwa [h0] at hd
  · have hdet := isUnit_gram_ridge (fun _ : Fin 4 => 1 * A1 1) (fun _ => by linarith [hA.1])
      (![fun _ => 1, fun _ => 1, fun _ => -1, fun _ => -1] : Fin 4 → Fin 1 → ℝ)
    have h1 := congrFun (hs 1 _ (fun j => ∑ i, (![fun _ => 1, fun _ => 1, fun _ => -1, fun _ => -1] :
      Fin 4 → Fin 1 → ℝ) i j * (1 * A1 1 * sin (theta i - 0))) hdet) 0
    rw [← f3, Matrix.add_mulVec, Pi.add_apply, mulVec_gram, mulVec_ridge] at h1
    have c1 : sin (π / 2 + π / 3) = 1 / 2 := by rw [add_comm, sin_add_pi_div_two, cos_pi_div_three]
    have c2 : sin (π / 2 - π / 3) = 1 / 2 := by rw [sin_pi_div_two_sub, cos_pi_div_three]
    have c3 : sin (-(π / 2) + π / 3) = -(1 / 2) := by
      rw [show -(π / 2) + π / 3 = -(π / 2 - π / 3) by ring, sin_neg, c2]
    have c4 : sin (-(π / 2) - π / 3) = -(1 / 2) := by
      rw [show -(π / 2) - π / 3 = -(π / 2 + π / 3) by ring, sin_neg, c1]
    simp [Fin.sum_univ_four, theta, c1, c2, c3, c4] at h1
    nlinarith [hA.1, hA.2]

end Verif.Props
