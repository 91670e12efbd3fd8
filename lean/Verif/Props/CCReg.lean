import Verif.Lemmas.CCReg
import Verif.Lemmas.NestedLS

/-! # C55: circular-circular regression (`CCRegression`)

`lstsq`, the two matrix inverses and the chi-square distribution function are arbitrary unless a hypothesis
says otherwise. -/

set_option autoImplicit false

namespace Verif.Props

open Real Verif Verif.Spec

variable {n m order : ℕ} {level : ℝ}
  {lstsq : Matrix (Fin n) (CCTerm m order) ℝ → (Fin n → ℝ) → (CCTerm m order → ℝ)}
  {invX : Matrix (CCTerm m order) (CCTerm m order) ℝ → Matrix (CCTerm m order) (CCTerm m order) ℝ}
  {invW : Matrix (Fin m ⊕ Fin m) (Fin m ⊕ Fin m) ℝ → Matrix (Fin m ⊕ Fin m) (Fin m ⊕ Fin m) ℝ}
  {chi2 : ℝ → ℕ → ℝ} {theta : Fin n → ℝ} {x : Fin n → Fin m → ℝ}

/-- Specification: the value at `x` of the trigonometric polynomial with coefficients `b`. -/
noncomputable def trigPoly {m K : ℕ} (b : CCTerm m K → ℝ) (x : Fin m → ℝ) : ℝ :=
  b (.inl ()) + ∑ j, ∑ k : Fin K,
    (b (.inr (.inl (j, k))) * cos ((k + 1 : ℝ) * x j) + b (.inr (.inr (j, k))) * sin ((k + 1 : ℝ) * x j))

private lemma mulVec_eq (b : CCTerm m order → ℝ) (i : Fin n) :
    (ccDesign order x).mulVec b i = trigPoly b (x i) := mulVec_ccDesign x b i

private lemma rss_eq (y : Fin n → ℝ) (b : CCTerm m order → ℝ) :
    rss (ccDesign order x) y b = ∑ i, (y i - trigPoly b (x i)) ^ 2 := by
  unfold rss; simp only [mulVec_eq]

/-- The fit is made exactly when the order is positive and the level is strictly between 0 and 1; otherwise
`ValueError`. -/
theorem C55_refused (theta : Fin n → ℝ) (x : Fin n → Fin m → ℝ) :
    ((∃ r, ccFit theta x order level lstsq invX invW chi2 = .ok r) ↔ 1 ≤ order ∧ 0 < level ∧ level < 1) ∧
    (¬ (1 ≤ order ∧ 0 < level ∧ level < 1) →
      ccFit theta x order level lstsq invX invW chi2 = .error .valueError) := by
  have h2 : ¬ (1 ≤ order ∧ 0 < level ∧ level < 1) →
      ccFit theta x order level lstsq invX invW chi2 = .error .valueError := by
    intro h
    unfold ccFit
    by_cases ho : order < 1
    · rw [if_pos ho]
    · rw [if_neg ho, if_pos]
      intro hl
      exact h ⟨by omega, hl⟩
  refine ⟨⟨?_, ?_⟩, h2⟩
  · rintro ⟨r, hr⟩
    by_contra h
    rw [h2 h] at hr
    cases hr
  · rintro ⟨ho, hl⟩
    rw [ccFit_eq theta x order level lstsq invX invW chi2 ho hl]
    exact ⟨_, rfl⟩

private lemma ok_cond {r : CCResult n m order} (h : ccFit theta x order level lstsq invX invW chi2 = .ok r) :
    1 ≤ order ∧ 0 < level ∧ level < 1 := (C55_refused theta x).1.1 ⟨r, h⟩

/-- Whatever the linear algebra routines return: the fitted directions are in `[0, 2π)` and point along the
fitted cosine and sine; the residuals are in `(-π, π]` and lead from the fitted to the observed direction;
`rho`, if defined, is between 0 and 1. -/
theorem C55_output (theta : Fin n → ℝ) (x : Fin n → Fin m → ℝ) {r : CCResult n m order}
    (h : ccFit theta x order level lstsq invX invW chi2 = .ok r) :
    (∀ i, 0 ≤ r.fitted i ∧ r.fitted i < 2 * π) ∧
    (∀ i, ∃ s, 0 ≤ s ∧ trigPoly r.betaCos (x i) = s * cos (r.fitted i) ∧
      trigPoly r.betaSin (x i) = s * sin (r.fitted i)) ∧
    (∀ i, -π < r.residuals i ∧ r.residuals i ≤ π ∧ SameDir (r.fitted i + r.residuals i) (theta i)) ∧
    (∀ v, r.rho = some v → 0 ≤ v ∧ v ≤ 1) ∧ (r.rho = none ↔ n = 0) := by
  obtain ⟨ho, hl⟩ := ok_cond h
  rw [ccFit_eq theta x order level lstsq invX invW chi2 ho hl] at h
  simp only [Except.ok.injEq] at h
  subst h
  simp only
  refine ⟨fun i => ⟨pymod_nonneg two_pi_pos' _, pymod_lt two_pi_pos' _⟩, fun i => ?_, fun i => ?_, ?_, ?_⟩
  · rw [← mulVec_eq, ← mulVec_eq]
    generalize (ccDesign order x).mulVec _ i = c
    generalize (ccDesign order x).mulVec _ i = s
    have h1 := cos_eq_of_sameDir (pymod_cong (arctan2 s c) (2 * π))
    have h2 := sin_eq_of_sameDir (pymod_cong (arctan2 s c) (2 * π))
    rw [h1, h2]
    refine ⟨‖(⟨c, s⟩ : ℂ)‖, norm_nonneg _, ?_, ?_⟩
    · have := Complex.norm_mul_cos_arg (⟨c, s⟩ : ℂ)
      exact this.symm
    · have := Complex.norm_mul_sin_arg (⟨c, s⟩ : ℂ)
      exact this.symm
  · refine ⟨Complex.neg_pi_lt_arg _, Complex.arg_le_pi _, ?_⟩
    generalize pymod _ (2 * π) = f
    have h1 : SameDir (Complex.arg (Complex.exp (((theta i - f : ℝ) : ℂ) * Complex.I))) (theta i - f) := by
      refine arg_sameDir_of_polar (r := 1) one_pos ?_
      simp
    have h2 := (CongMod.refl (2 * π) f).add h1
    rwa [show f + (theta i - f) = theta i by ring] at h2
  · intro v hv
    rw [Option.map_eq_some_iff] at hv
    obtain ⟨u, -, rfl⟩ := hv
    unfold clip
    exact ⟨le_min (le_max_right _ _) zero_le_one, min_le_right _ _⟩
  · unfold pydiv
    by_cases h0 : n = 0
    · simp [h0]
    · simp [h0]

/-- The results depend on the data only modulo `2π`. -/
theorem C55_mod {theta' : Fin n → ℝ} {x' : Fin n → Fin m → ℝ} (ht : ∀ i, SameDir (theta' i) (theta i))
    (hx : ∀ i j, SameDir (x' i j) (x i j)) :
    ccFit theta' x' order level lstsq invX invW chi2 = ccFit theta x order level lstsq invX invW chi2 := by
  have h1 : (fun i => pymod (theta' i) (2 * π)) = fun i => pymod (theta i) (2 * π) :=
    funext fun i => pymod_congr two_pi_pos' (ht i)
  have h2 : (fun i j => pymod (x' i j) (2 * π)) = fun i j => pymod (x i j) (2 * π) :=
    funext fun i => funext fun j => pymod_congr two_pi_pos' (hx i j)
  unfold ccFit
  simp only
  have h3 : ∀ i, pymod (theta' i) (2 * π) = pymod (theta i) (2 * π) := fun i => congrFun h1 i
  have h4 : ∀ i j, pymod (x' i j) (2 * π) = pymod (x i j) (2 * π) := fun i j => congrFun (congrFun h2 i) j
  simp only [h3, h4]

private lemma rho_aux {y z : Fin n → ℝ} {bc bs : CCTerm m order → ℝ} (hy : ∀ i, y i ^ 2 + z i ^ 2 = 1)
    (hc : IsLeastSquares (ccDesign order x) y bc) (hs : IsLeastSquares (ccDesign order x) z bs) :
    ∑ i, (trigPoly bc (x i) ^ 2 + trigPoly bs (x i) ^ 2)
      = n - ∑ i, ((y i - trigPoly bc (x i)) ^ 2 + (z i - trigPoly bs (x i)) ^ 2) := by
  have h1 := hc.sum_sq
  have h2 := hs.sum_sq
  rw [rss_eq] at h1 h2
  simp only [mulVec_eq] at h1 h2
  have h3 : ∑ i, (y i ^ 2 + z i ^ 2) = (n : ℝ) := by simp [hy]
  rw [Finset.sum_add_distrib] at h3
  rw [Finset.sum_add_distrib, Finset.sum_add_distrib]
  linarith

/-- With least-squares coefficients, no pair of trigonometric polynomials of the given order is closer to the
observed directions on the unit circle than the fitted pair; `1 - rho²` is the mean squared distance of the
fitted from the observed points and `rho²` the mean squared length of the fitted points (so that limiting
`rho` to at most 1 changes nothing). -/
theorem C55_rho (hn : 0 < n) (hls : ∀ X y, IsLeastSquares X y (lstsq X y)) {r : CCResult n m order}
    (h : ccFit theta x order level lstsq invX invW chi2 = .ok r) :
    ∃ rho, r.rho = some rho ∧ 0 ≤ rho ∧ rho ≤ 1 ∧
      rho ^ 2 = (∑ i, (trigPoly r.betaCos (x i) ^ 2 + trigPoly r.betaSin (x i) ^ 2)) / n ∧
      1 - rho ^ 2 = (∑ i, ((cos (theta i) - trigPoly r.betaCos (x i)) ^ 2
        + (sin (theta i) - trigPoly r.betaSin (x i)) ^ 2)) / n ∧
      (∀ b b' : CCTerm m order → ℝ, 1 - rho ^ 2 ≤ (∑ i, ((cos (theta i) - trigPoly b (x i)) ^ 2
        + (sin (theta i) - trigPoly b' (x i)) ^ 2)) / n) := by
  obtain ⟨ho, hl⟩ := ok_cond h
  rw [ccFit_eq theta x order level lstsq invX invW chi2 ho hl] at h
  simp only [Except.ok.injEq] at h
  subst h
  simp only
  have hc := hls (ccDesign order x) (fun i => cos (theta i))
  have hs := hls (ccDesign order x) (fun i => sin (theta i))
  set bc := lstsq (ccDesign order x) (fun i => cos (theta i))
  set bs := lstsq (ccDesign order x) (fun i => sin (theta i))
  have hsum := rho_aux (fun i => cos_sq_add_sin_sq (theta i)) hc hs
  simp only [mulVec_eq]
  set A := ∑ i, (trigPoly bc (x i) ^ 2 + trigPoly bs (x i) ^ 2)
  set B := ∑ i, ((cos (theta i) - trigPoly bc (x i)) ^ 2 + (sin (theta i) - trigPoly bs (x i)) ^ 2) with hB
  have hA0 : 0 ≤ A := Finset.sum_nonneg fun i _ => by positivity
  have hB0 : 0 ≤ B := Finset.sum_nonneg fun i _ => by positivity
  have hn' : (0 : ℝ) < n := by exact_mod_cast hn
  have hle : A / n ≤ 1 := by rw [div_le_one hn']; linarith
  have hs1 : sqrt (A / n) ≤ 1 := by rw [Real.sqrt_le_one]; exact hle
  have hsq : sqrt (A / n) ^ 2 = A / n := Real.sq_sqrt (by positivity)
  have hB1 : 1 - A / n = B / n := by rw [hsum]; field_simp; ring
  refine ⟨sqrt (A / n), ?_, sqrt_nonneg _, hs1, hsq, by rw [hsq, hB1], fun b b' => ?_⟩
  · rw [show pydiv A n = some (A / n) from if_neg hn'.ne']
    simp only [Option.map_some, Option.some.injEq]
    unfold clip
    rw [max_eq_left (sqrt_nonneg _), min_eq_left hs1]
  · rw [hsq, hB1]
    refine div_le_div_of_nonneg_right ?_ hn'.le
    have h1 := hc b
    have h2 := hs b'
    rw [rss_eq, rss_eq] at h1 h2
    rw [hB, Finset.sum_add_distrib, Finset.sum_add_distrib]
    linarith

/-- `rho = 1` exactly when the observed points lie on a curve given by trigonometric polynomials of the
chosen order; then every fitted direction is the observed one and every residual is zero. -/
theorem C55_rho_one (hn : 0 < n) (hls : ∀ X y, IsLeastSquares X y (lstsq X y)) {r : CCResult n m order}
    (h : ccFit theta x order level lstsq invX invW chi2 = .ok r) :
    (r.rho = some 1 ↔ ∃ b b' : CCTerm m order → ℝ, ∀ i, cos (theta i) = trigPoly b (x i) ∧
      sin (theta i) = trigPoly b' (x i)) ∧
    (r.rho = some 1 → ∀ i, SameDir (r.fitted i) (theta i) ∧ r.residuals i = 0) := by
  obtain ⟨rho, h1, h2, h3, -, h5, h6⟩ := C55_rho hn hls h
  have hn' : (0 : ℝ) < n := by exact_mod_cast hn
  have hexact : r.rho = some 1 → ∀ i, cos (theta i) = trigPoly r.betaCos (x i) ∧
      sin (theta i) = trigPoly r.betaSin (x i) := by
    intro hr i
    have h7 : rho = 1 := by rw [h1] at hr; exact Option.some.inj hr
    rw [h7] at h5
    have h8 : ∑ i, ((cos (theta i) - trigPoly r.betaCos (x i)) ^ 2
        + (sin (theta i) - trigPoly r.betaSin (x i)) ^ 2) = 0 := by
      have := h5.symm
      rw [div_eq_iff hn'.ne'] at this
      linarith
    have h9 := (Finset.sum_eq_zero_iff_of_nonneg fun i _ => by positivity).1 h8 i (Finset.mem_univ i)
    constructor <;> nlinarith [sq_nonneg (cos (theta i) - trigPoly r.betaCos (x i)),
      sq_nonneg (sin (theta i) - trigPoly r.betaSin (x i))]
  refine ⟨⟨fun hr => ⟨_, _, hexact hr⟩, ?_⟩, ?_⟩
  · rintro ⟨b, b', hb⟩
    have h7 := h6 b b'
    have h8 : ∑ i, ((cos (theta i) - trigPoly b (x i)) ^ 2 + (sin (theta i) - trigPoly b' (x i)) ^ 2) = 0 := by
      refine Finset.sum_eq_zero fun i _ => ?_
      rw [(hb i).1, (hb i).2]; ring
    rw [h8, zero_div] at h7
    have : rho = 1 := by nlinarith
    rw [h1, this]
  · intro hr i
    obtain ⟨hc, hs⟩ := hexact hr i
    obtain ⟨-, hf, hres, -⟩ := C55_output theta x h
    obtain ⟨s, hs0, hs1, hs2⟩ := hf i
    rw [← hc] at hs1
    rw [← hs] at hs2
    have hsone : s = 1 := by
      have e1 := cos_sq_add_sin_sq (theta i)
      have e2 := cos_sq_add_sin_sq (r.fitted i)
      rw [hs1, hs2] at e1
      have e3 : s ^ 2 = 1 := by linear_combination e1 - s ^ 2 * e2
      nlinarith
    have hdir : SameDir (r.fitted i) (theta i) := by
      rw [← exp_eq_iff_sameDir]
      apply Complex.ext
      · rw [exp_re, exp_re, hs1, hsone, one_mul]
      · rw [exp_im, exp_im, hs2, hsone, one_mul]
    refine ⟨hdir, ?_⟩
    obtain ⟨r1, r2, r3⟩ := hres i
    obtain ⟨k, hk⟩ := r3.trans hdir.symm
    have hk' : r.residuals i = k * (2 * π) := by linarith
    have hπ := Real.pi_pos
    rw [hk'] at r1 r2 ⊢
    have a1 : (-1 : ℝ) < k := by nlinarith
    have a2 : (k : ℝ) < 1 := by nlinarith
    have b1 : -1 < k := by exact_mod_cast a1
    have b2 : k < 1 := by exact_mod_cast a2
    have : k = 0 := by omega
    rw [this]; simp

/-- `rho` is never smaller than the mean resultant length of the response: the constant model is part of
the fit. -/
theorem C55_rho_ge (hn : 0 < n) (hls : ∀ X y, IsLeastSquares X y (lstsq X y)) {r : CCResult n m order}
    (h : ccFit theta x order level lstsq invX invW chi2 = .ok r) :
    ∃ rho, r.rho = some rho ∧ ‖(∑ i, Complex.exp ((theta i : ℂ) * Complex.I)) / n‖ ≤ rho := by
  obtain ⟨rho, h1, h2, -, -, -, h6⟩ := C55_rho hn hls h
  refine ⟨rho, h1, ?_⟩
  have hn' : (0 : ℝ) < n := by exact_mod_cast hn
  set c := (∑ i, cos (theta i)) / n with hcd
  set s := (∑ i, sin (theta i)) / n with hsd
  have h7 := h6 (fun t => match t with | .inl _ => c | _ => 0) (fun t => match t with | .inl _ => s | _ => 0)
  have h8 : ∑ i, ((cos (theta i) - c) ^ 2 + (sin (theta i) - s) ^ 2) = n - n * (c ^ 2 + s ^ 2) := by
    have e : ∀ i, (cos (theta i) - c) ^ 2 + (sin (theta i) - s) ^ 2
        = (1 + (c ^ 2 + s ^ 2)) - 2 * c * cos (theta i) - 2 * s * sin (theta i) := fun i => by
      linear_combination cos_sq_add_sin_sq (theta i)
    simp only [e, Finset.sum_sub_distrib, ← Finset.mul_sum, Finset.sum_const, Finset.card_univ, Fintype.card_fin,
      nsmul_eq_mul]
    have e1 : ∑ i, cos (theta i) = n * c := by rw [hcd]; field_simp
    have e2 : ∑ i, sin (theta i) = n * s := by rw [hsd]; field_simp
    rw [e1, e2]; ring
  simp only [trigPoly, zero_mul, add_zero, Finset.sum_const_zero] at h7
  rw [h8] at h7
  have h9 : c ^ 2 + s ^ 2 ≤ rho ^ 2 := by
    have : ((n : ℝ) - n * (c ^ 2 + s ^ 2)) / n = 1 - (c ^ 2 + s ^ 2) := by field_simp
    rw [this] at h7
    linarith
  have h10 : ‖(∑ i, Complex.exp ((theta i : ℂ) * Complex.I)) / n‖ ^ 2 = c ^ 2 + s ^ 2 := by
    rw [norm_div, Complex.norm_natCast, div_pow, Complex.sq_norm, Complex.normSq_apply, Complex.re_sum,
      Complex.im_sum]
    simp only [Complex.exp_ofReal_mul_I_re, Complex.exp_ofReal_mul_I_im]
    rw [hcd, hsd]; ring
  rw [← h10] at h9
  exact (sq_le_sq₀ (norm_nonneg _) h2).1 h9

/-- Rotating all responses by `t` keeps `rho` and rotates the fitted directions by `t`, keeping the
residuals, wherever the fitted point is not the centre of the circle. -/
theorem C55_rotate (hls : ∀ X y, IsLeastSquares X y (lstsq X y)) (t : ℝ) {r r' : CCResult n m order}
    (h : ccFit theta x order level lstsq invX invW chi2 = .ok r)
    (h' : ccFit (fun i => theta i + t) x order level lstsq invX invW chi2 = .ok r') :
    r'.rho = r.rho ∧
    ∀ i, ¬ (trigPoly r.betaCos (x i) = 0 ∧ trigPoly r.betaSin (x i) = 0) →
      SameDir (r'.fitted i) (r.fitted i + t) ∧ r'.residuals i = r.residuals i := by
  obtain ⟨ho, hl⟩ := ok_cond h
  have hX := ccFit_eq theta x order level lstsq invX invW chi2 ho hl
  have hX' := ccFit_eq (fun i => theta i + t) x order level lstsq invX invW chi2 ho hl
  have hout := C55_output theta x h
  have hout' := C55_output (fun i => theta i + t) x h'
  rw [hX] at h
  rw [hX'] at h'
  simp only [Except.ok.injEq] at h h'
  have hc := hls (ccDesign order x) (fun i => cos (theta i))
  have hs := hls (ccDesign order x) (fun i => sin (theta i))
  have hc' := hls (ccDesign order x) (fun i => cos (theta i + t))
  have hs' := hls (ccDesign order x) (fun i => sin (theta i + t))
  have ec := hc'.unique (by
    have := hc.comb hs (cos t) (-sin t)
    refine this.congr_y fun i => ?_
    rw [cos_add]; ring)
  have es := hs'.unique (by
    have := hc.comb hs (sin t) (cos t)
    refine this.congr_y fun i => ?_
    rw [sin_add]; ring)
  set bc := lstsq (ccDesign order x) (fun i => cos (theta i)) with hbc
  set bs := lstsq (ccDesign order x) (fun i => sin (theta i)) with hbs
  set bc' := lstsq (ccDesign order x) (fun i => cos (theta i + t)) with hbc'
  set bs' := lstsq (ccDesign order x) (fun i => sin (theta i + t)) with hbs'
  have ec' : ∀ i, trigPoly bc' (x i) = cos t * trigPoly bc (x i) - sin t * trigPoly bs (x i) := by
    intro i
    have := congrFun ec i
    rw [Matrix.mulVec_add, Matrix.mulVec_smul, Matrix.mulVec_smul] at this
    simp only [Pi.add_apply, Pi.smul_apply, smul_eq_mul, mulVec_eq] at this
    rw [this]; ring
  have es' : ∀ i, trigPoly bs' (x i) = sin t * trigPoly bc (x i) + cos t * trigPoly bs (x i) := by
    intro i
    have := congrFun es i
    rw [Matrix.mulVec_add, Matrix.mulVec_smul, Matrix.mulVec_smul] at this
    simpa only [Pi.add_apply, Pi.smul_apply, smul_eq_mul, mulVec_eq] using this
  refine ⟨?_, fun i hi => ?_⟩
  · rw [← h, ← h']
    simp only [mulVec_eq, ec', es']
    have e : ∀ i, (cos t * trigPoly bc (x i) - sin t * trigPoly bs (x i)) ^ 2
        + (sin t * trigPoly bc (x i) + cos t * trigPoly bs (x i)) ^ 2
        = trigPoly bc (x i) ^ 2 + trigPoly bs (x i) ^ 2 := fun i => by
      linear_combination (trigPoly bc (x i) ^ 2 + trigPoly bs (x i) ^ 2) * sin_sq_add_cos_sq t
    simp only [e]
  · have b1 : r.betaCos = bc := by rw [← h]
    have b2 : r.betaSin = bs := by rw [← h]
    have b3 : r'.betaCos = bc' := by rw [← h']
    have b4 : r'.betaSin = bs' := by rw [← h']
    obtain ⟨-, hf, hr, -⟩ := hout
    obtain ⟨-, hf', hr', -⟩ := hout'
    obtain ⟨s, hs0, hs1, hs2⟩ := hf i
    obtain ⟨s', hs0', hs1', hs2'⟩ := hf' i
    rw [b1] at hs1 hi
    rw [b2] at hs2 hi
    rw [b3, ec', hs1, hs2] at hs1'
    rw [b4, es', hs1, hs2] at hs2'
    have c1 : s * cos (r.fitted i + t) = s' * cos (r'.fitted i) := by rw [← hs1', cos_add]; ring
    have c2 : s * sin (r.fitted i + t) = s' * sin (r'.fitted i) := by rw [← hs2', sin_add]; ring
    have c3 : s ^ 2 = s' ^ 2 := by
      have e1 := cos_sq_add_sin_sq (r.fitted i + t)
      have e2 := cos_sq_add_sin_sq (r'.fitted i)
      calc s ^ 2 = (s * cos (r.fitted i + t)) ^ 2 + (s * sin (r.fitted i + t)) ^ 2 := by
            linear_combination -(s ^ 2) * e1
        _ = s' ^ 2 := by rw [c1, c2]; linear_combination s' ^ 2 * e2
    have c4 : s = s' := by nlinarith
    have c5 : s ≠ 0 := by
      intro h0
      rw [h0] at hs1 hs2
      exact hi ⟨by rw [hs1]; ring, by rw [hs2]; ring⟩
    rw [← c4] at c1 c2
    have d1 := mul_left_cancel₀ c5 c1
    have d2 := mul_left_cancel₀ c5 c2
    have hdir : SameDir (r'.fitted i) (r.fitted i + t) := by
      rw [← exp_eq_iff_sameDir]
      apply Complex.ext
      · rw [exp_re, exp_re, d1]
      · rw [exp_im, exp_im, d2]
    refine ⟨hdir, ?_⟩
    obtain ⟨p1, p2, p3⟩ := hr i
    obtain ⟨q1, q2, q3⟩ := hr' i
    have e1 : SameDir (r'.residuals i) (r.residuals i) := by
      have e2 := (q3.trans ((p3.symm.add_right t))).sub hdir
      have e3 : r'.fitted i + r'.residuals i - r'.fitted i = r'.residuals i := by ring
      have e4 : r.fitted i + r.residuals i + t - (r.fitted i + t) = r.residuals i := by ring
      rwa [e3, e4] at e2
    obtain ⟨k, hk⟩ := e1
    have hπ := Real.pi_pos
    have a1 : (-1 : ℝ) < k := by nlinarith
    have a2 : (k : ℝ) < 1 := by nlinarith
    have b1 : -1 < k := by exact_mod_cast a1
    have b2 : k < 1 := by exact_mod_cast a2
    have : k = 0 := by omega
    rw [hk, this]; simp

/-- Moving the zero direction of any predictor changes neither `rho` nor the fitted directions nor the
residuals. -/
theorem C55_shift (hls : ∀ X y, IsLeastSquares X y (lstsq X y)) (c : Fin m → ℝ) {r r' : CCResult n m order}
    (h : ccFit theta x order level lstsq invX invW chi2 = .ok r)
    (h' : ccFit theta (fun i j => x i j + c j) order level lstsq invX invW chi2 = .ok r') :
    r'.rho = r.rho ∧ r'.fitted = r.fitted ∧ r'.residuals = r.residuals := by
  obtain ⟨ho, hl⟩ := ok_cond h
  rw [ccFit_eq theta x order level lstsq invX invW chi2 ho hl] at h
  rw [ccFit_eq theta _ order level lstsq invX invW chi2 ho hl] at h'
  simp only [Except.ok.injEq] at h h'
  have key : ∀ y, (ccDesign order fun i j => x i j + c j).mulVec (lstsq (ccDesign order fun i j => x i j + c j) y)
      = (ccDesign order x).mulVec (lstsq (ccDesign order x) y) := by
    intro y
    refine (hls _ y).of_span (hls _ y) (ccDesign_shift x c) fun d => ?_
    obtain ⟨d', hd'⟩ := ccDesign_shift (fun i j => x i j + c j) (fun j => -c j) d
    refine ⟨d', ?_⟩
    rw [← hd']
    simp
  rw [← h, ← h']
  simp only [key]
  exact ⟨trivial, trivial, trivial⟩

/-- The test of the next harmonic. When no trigonometric polynomial with harmonics up to `order + 1` vanishes
at all data points, and the inverses are inverses, each p-value is the chi-square tail with two degrees of
freedom per predictor at `(n - (2·order + 1))` (at least 1) times the relative reduction of the residual sum
of squares by adding the next harmonic. -/
theorem C55_test (hn : 0 < n) (hm : 0 < m) (hls : ∀ X y, IsLeastSquares X y (lstsq X y))
    (hiX : ∀ A, IsUnit A.det → invX A = A⁻¹) (hiW : ∀ A, IsUnit A.det → invW A = A⁻¹)
    (hind : ∀ b : CCTerm m order → ℝ, ∀ u v : Fin m → ℝ,
      (∀ i, trigPoly b (x i) + ∑ j, (u j * cos ((order + 1 : ℝ) * x i j) + v j * sin ((order + 1 : ℝ) * x i j)) = 0) →
      b = 0 ∧ u = 0 ∧ v = 0)
    {r : CCResult n m order} (h : ccFit theta x order level lstsq invX invW chi2 = .ok r) :
    ∃ pc ps, r.pvalues = some (pc, ps) ∧
      ∀ p y b, (p = pc ∧ y = (fun i => cos (theta i)) ∧ b = r.betaCos) ∨
        (p = ps ∧ y = (fun i => sin (theta i)) ∧ b = r.betaSin) →
      ∃ full, IsLeast {s | ∃ (b : CCTerm m order → ℝ) (u v : Fin m → ℝ), s = ∑ i, (y i - (trigPoly b (x i)
          + ∑ j, (u j * cos ((order + 1 : ℝ) * x i j) + v j * sin ((order + 1 : ℝ) * x i j)))) ^ 2} full ∧
        p = 1 - chi2 (max ((n - (2 * order + 1) : ℕ) : ℝ) 1 * (∑ i, (y i - trigPoly b (x i)) ^ 2 - full)
          / max (∑ i, (y i - trigPoly b (x i)) ^ 2) (1 / 10 ^ 12)) (2 * m) := by
  obtain ⟨ho, hl⟩ := ok_cond h
  rw [ccFit_eq theta x order level lstsq invX invW chi2 ho hl] at h
  simp only [Except.ok.injEq] at h
  have hnm : n * (m + m) ≠ 0 := by
    intro h0
    rcases Nat.mul_eq_zero.1 h0 with h1 | h1 <;> omega
  rw [if_neg hnm] at h
  set X := ccDesign order x with hXd
  set W := ccHigher order x with hWd
  have hW : ∀ (w : Fin m ⊕ Fin m → ℝ) i, W.mulVec w i
      = ∑ j, (w (.inl j) * cos ((order + 1 : ℝ) * x i j) + w (.inr j) * sin ((order + 1 : ℝ) * x i j)) := by
    intro w i
    rw [hWd]
    unfold Matrix.mulVec dotProduct ccHigher
    simp only [Fintype.sum_sum_type, Matrix.of_apply, ← Finset.sum_add_distrib]
    exact Finset.sum_congr rfl fun j _ => by ring
  have hind' : ∀ b w, X.mulVec b + W.mulVec w = 0 → b = 0 ∧ w = 0 := by
    intro b w hbw
    obtain ⟨h1, h2, h3⟩ := hind b (fun j => w (.inl j)) (fun j => w (.inr j)) fun i => by
      have := congrFun hbw i
      rwa [Pi.add_apply, hW, mulVec_eq] at this
    refine ⟨h1, funext fun j => ?_⟩
    rcases j with j | j
    · exact congrFun h2 j
    · exact congrFun h3 j
  have hXu := isUnit_gram (X := X) fun b hb => (hind' b 0 (by simp [hb])).1
  have hHu := isUnit_schur hind'
  have main : ∀ y : Fin n → ℝ, ∃ full, IsLeast {s | ∃ (b : CCTerm m order → ℝ) (u v : Fin m → ℝ),
        s = ∑ i, (y i - (trigPoly b (x i)
          + ∑ j, (u j * cos ((order + 1 : ℝ) * x i j) + v j * sin ((order + 1 : ℝ) * x i j)))) ^ 2} full ∧
      ccT order X W invX invW (y - X.mulVec (lstsq X y))
        = max ((n - (2 * order + 1) : ℕ) : ℝ) 1 * (∑ i, (y i - trigPoly (lstsq X y) (x i)) ^ 2 - full)
          / max (∑ i, (y i - trigPoly (lstsq X y) (x i)) ^ 2) (1 / 10 ^ 12) := by
    intro y
    have hl := nested_rss hind' (hls X y)
    refine ⟨rss X y (lstsq X y) - (y - X.mulVec (lstsq X y)) ⬝ᵥ (W * (W.transpose *
      (1 - X * (X.transpose * X)⁻¹ * X.transpose) * W)⁻¹ * W.transpose).mulVec (y - X.mulVec (lstsq X y)),
      ⟨?_, ?_⟩, ?_⟩
    rotate_left 2
    · unfold ccT
      simp only
      rw [hiX _ hXu, hiW _ hHu]
      have e1 : (y - X.mulVec (lstsq X y)) ⬝ᵥ (y - X.mulVec (lstsq X y))
          = ∑ i, (y i - trigPoly (lstsq X y) (x i)) ^ 2 := by
        unfold dotProduct
        exact Finset.sum_congr rfl fun i _ => by rw [Pi.sub_apply, mulVec_eq]; ring
      rw [e1, Nat.cast_max, Nat.cast_one, ← rss_eq, sub_sub_cancel]
    · obtain ⟨b, w, hbw⟩ := hl.1
      refine ⟨b, fun j => w (.inl j), fun j => w (.inr j), ?_⟩
      rw [hbw]
      exact Finset.sum_congr rfl fun i _ => by rw [hW, mulVec_eq]
    · rintro s ⟨b, u, v, rfl⟩
      refine hl.2 ⟨b, Sum.elim u v, ?_⟩
      exact Finset.sum_congr rfl fun i _ => by rw [hW, mulVec_eq]; rfl
  obtain ⟨fc, hc1, hc2⟩ := main fun i => cos (theta i)
  obtain ⟨fs, hs1, hs2⟩ := main fun i => sin (theta i)
  subst h
  refine ⟨_, _, rfl, ?_⟩
  rintro p y b (⟨rfl, rfl, rfl⟩ | ⟨rfl, rfl, rfl⟩)
  · refine ⟨fc, hc1, ?_⟩
    rw [hc2, two_mul m]
  · refine ⟨fs, hs1, ?_⟩
    rw [hs2, two_mul m]

/-- The message: none is tested without data or predictors; otherwise the next harmonic is reported as not
significant exactly when both p-values exceed the level. -/
theorem C55_message {r : CCResult n m order} (h : ccFit theta x order level lstsq invX invW chi2 = .ok r) :
    (r.message = .none ↔ n = 0 ∨ m = 0) ∧ (r.pvalues = none ↔ n = 0 ∨ m = 0) ∧
    (r.message = .notSignificant ↔ ∃ p q, r.pvalues = some (p, q) ∧ level < p ∧ level < q) := by
  obtain ⟨ho, hl⟩ := ok_cond h
  rw [ccFit_eq theta x order level lstsq invX invW chi2 ho hl] at h
  simp only [Except.ok.injEq] at h
  subst h
  simp only
  have hz : n * (m + m) = 0 ↔ n = 0 ∨ m = 0 := by
    rw [Nat.mul_eq_zero]; omega
  by_cases h0 : n * (m + m) = 0
  · rw [if_pos h0]
    simp [ccMessage, hz.1 h0]
  · rw [if_neg h0]
    have h1 := fun h => h0 (hz.2 h)
    generalize 1 - chi2 _ _ = p
    generalize 1 - chi2 _ _ = q
    unfold ccMessage
    by_cases hp : p > level ∧ q > level
    · simp only [if_pos hp]
      simp_all
    · simp only [if_neg hp]
      simp_all

/-! Non-vacuity. -/

/-- Five directions at which no trigonometric polynomial of order 2 vanishes. -/
noncomputable def ccX : Fin 5 → Fin 1 → ℝ := fun i _ => ![0, π / 2, π, 3 * π / 2, π / 4] i

example : ∀ b : CCTerm 1 1 → ℝ, ∀ u v : Fin 1 → ℝ,
    (∀ i, trigPoly b (ccX i) + ∑ j, (u j * cos (((1 : ℕ) + 1 : ℝ) * ccX i j)
      + v j * sin (((1 : ℕ) + 1 : ℝ) * ccX i j)) = 0) → b = 0 ∧ u = 0 ∧ v = 0 := by
  intro b u v h
  have h0 := h 0
  have h1 := h 1
  have h2 := h 2
  have h3 := h 3
  have h4 := h 4
  have e1 : (2 : ℝ) * (π / 2) = π := by ring
  have e2 : (2 : ℝ) * (3 * π / 2) = π + 2 * π := by ring
  have e3 : (2 : ℝ) * (π / 4) = π / 2 := by ring
  have e4 : cos (3 * π / 2) = 0 := by
    rw [show 3 * π / 2 = π / 2 + π by ring, cos_add_pi, cos_pi_div_two, neg_zero]
  have e5 : sin (3 * π / 2) = -1 := by
    rw [show 3 * π / 2 = π / 2 + π by ring, sin_add_pi, sin_pi_div_two]
  simp [trigPoly, ccX, one_add_one_eq_two, e1, e2, e3, e4, e5] at h0 h1 h2 h3 h4
  set b0 := b (.inl ())
  set b1 := b (.inr (.inl (0, 0)))
  set b2 := b (.inr (.inr (0, 0)))
  have k1 : b1 = 0 := by linarith
  have k2 : b2 = 0 := by linarith
  have k3 : b0 = 0 := by linarith
  have k4 : u 0 = 0 := by linarith
  have k5 : v 0 = 0 := by rw [k1, k2, k3] at h4; linarith
  refine ⟨funext fun t => ?_, funext fun j => ?_, funext fun j => ?_⟩
  · rcases t with t | ⟨j, k⟩ | ⟨j, k⟩
    · exact k3
    · rw [Subsingleton.elim j 0, Subsingleton.elim k 0]; exact k1
    · rw [Subsingleton.elim j 0, Subsingleton.elim k 0]; exact k2
  · rw [Subsingleton.elim j 0]; exact k4
  · rw [Subsingleton.elim j 0]; exact k5

/-- A least-squares solver exists for every design; here for `C55_rho` and the others. -/
example : ∃ lstsq : Matrix (Fin 5) (CCTerm 1 1) ℝ → (Fin 5 → ℝ) → (CCTerm 1 1 → ℝ),
    ∀ X y, IsLeastSquares X y (lstsq X y) := by
  choose f hf using fun (X : Matrix (Fin 5) (CCTerm 1 1) ℝ) y => exists_isLeastSquares X y
  exact ⟨f, hf⟩

end Verif.Props
