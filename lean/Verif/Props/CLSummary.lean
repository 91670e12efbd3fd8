import Verif.Model.RegressionSummary
import Verif.Lemmas.NormalTail
import Verif.Props.CLStdErr
import Verif.Props.Utils

/-! # C128: the table of coefficients printed by `CLRegression.summary` -/

set_option autoImplicit false

namespace Verif.Props

open Real Verif Verif.Spec ProbabilityTheory

/-- Specification: a printed row shows the estimate, its standard error, the t value `t`, the two-sided normal
p-value of `t`, and the stars of that p-value. -/
structure ShowsTest (row : CoefRow) (letter : String) (index : Option ℕ) (estimate se t : ℝ) : Prop where
  letter_eq : row.letter = letter
  index_eq : row.index = index
  estimate_eq : row.estimate = estimate
  se_eq : row.se = se
  t_eq : row.t = some t
  p : row.p = some (normalTails t)
  stars : row.stars = significanceCode (normalTails t)

section

variable {n p : ℕ} {cdf : ℝ → ℝ}

private lemma beta_shows (hcdf : ∀ x, cdf x = (gaussianReal 0 1).real (Set.Iic x)) (i : ℕ) (c : ℝ) {s : ℝ} (hs : 0 < s) :
    ShowsTest (betaRow cdf i c s) "β" (some i) c s (|c| / s) := by
  have ht : |c / s| = |c| / s := by rw [abs_div, abs_of_pos hs]
  have hp : 2 * (1 - cdf |(|c| / s)|) = normalTails (|c| / s) := by rw [hcdf]; exact two_sided_eq _
  constructor <;> simp [betaRow, tPvalue, starsOf, hs.ne', ht, hp]

private lemma alpha_shows (hcdf : ∀ x, cdf x = (gaussianReal 0 1).real (Set.Iic x)) (c : ℝ) {s : ℝ} (hs : 0 < s) :
    ShowsTest (alphaRow cdf c s) "α" none c s (c / s) := by
  have hp : 2 * (1 - cdf |c / s|) = normalTails (c / s) := by rw [hcdf]; exact two_sided_eq _
  constructor <;> simp [alphaRow, tPvalue, starsOf, hs.ne', hp]

private lemma gamma_shows (hcdf : ∀ x, cdf x = (gaussianReal 0 1).real (Set.Iic x)) (i : ℕ) (c : ℝ) {s : ℝ} (hs : 0 < s) :
    ShowsTest (gammaRow cdf i c s) "γ" (some i) c s (c / s) := by
  have hp : 2 * (1 - cdf |c / s|) = normalTails (c / s) := by rw [hcdf]; exact two_sided_eq _
  constructor <;> simp [gammaRow, tPvalue, starsOf, hs.ne', hp]

/-- **C128.** Without a fit there is nothing to summarise. -/
theorem C128_unfitted : clSummary (n := n) (p := p) cdf none = .error .valueError := rfl

section

variable (hcdf : ∀ x, cdf x = (gaussianReal 0 1).real (Set.Iic x))
include hcdf

/-- **C128.** Model "mean": the table has one row for every predictor, in their order. Row `j` shows `betaⱼ`, its
standard error, `|betaⱼ|` divided by the standard error, and the probability that a standard normal variable is further
from zero than that. -/
theorem C128_mean {X : Fin n → Fin p → ℝ} {inv : ∀ q : ℕ, Matrix (Fin q) (Fin q) ℝ → Matrix (Fin q) (Fin q) ℝ}
    (hinv : ∀ (q : ℕ) (A : Matrix (Fin q) (Fin q) ℝ), IsUnit A.det → inv q A = A⁻¹)
    (r : CLResult (CLParams p) ℝ) (hk : 0 ≤ r.kappa) {se : MeanSE p}
    (hse : se = meanSE X (fun k => besselI 1 k / besselI 0 k) inv r) :
    ∃ rows, clSummary (n := n) cdf (some (.mean r se)) = .ok rows ∧ rows.length = p ∧
      ∀ j : Fin p, ∃ row, rows[(j : ℕ)]? = some row ∧
        ShowsTest row "β" (some (j : ℕ)) (r.params.beta j) (se.beta j) (|r.params.beta j| / se.beta j) := by
  subst hse
  refine ⟨_, rfl, List.length_ofFn, fun j => ⟨_, ?_, beta_shows hcdf _ _ (C117_mean hinv r hk j).2.1⟩⟩
  simp

/-- **C128.** Model "kappa": first the row of `alpha`, then one row for every predictor, in their order; the t values
are the estimates divided by their standard errors. -/
theorem C128_kappa {X : Fin n → Fin p → ℝ} {inv : ∀ q : ℕ, Matrix (Fin q) (Fin q) ℝ → Matrix (Fin q) (Fin q) ℝ}
    (hinv : ∀ (q : ℕ) (A : Matrix (Fin q) (Fin q) ℝ), IsUnit A.det → inv q A = A⁻¹)
    {theta : Fin n → ℝ} {i0 : ℝ → ℝ} {solve : ∀ q : ℕ, Matrix (Fin q) (Fin q) ℝ → (Fin q → ℝ) → (Fin q → ℝ)}
    {c : CLParams p} {s : CLStep (CLParams p) (Fin n → ℝ)}
    (h : kappaStep theta X (fun k => besselI 1 k / besselI 0 k) i0 solve c = .ok (some s)) {se : KappaSE n p}
    (hse : se = kappaSE X (fun k => besselI 1 k / besselI 0 k) inv ⟨c, s.mu, s.kappa, s.ll⟩) :
    ∃ rows, clSummary cdf (some (.kappa ⟨c, s.mu, s.kappa, s.ll⟩ se)) = .ok rows ∧ rows.length = p + 1 ∧
      (∃ row, rows[0]? = some row ∧ ShowsTest row "α" none c.alpha se.alpha (c.alpha / se.alpha)) ∧
      ∀ j : Fin p, ∃ row, rows[(j : ℕ) + 1]? = some row ∧
        ShowsTest row "γ" (some (j : ℕ)) (c.gamma j) (se.gamma j) (c.gamma j / se.gamma j) := by
  obtain ⟨I, se', -, h2, -, h4, -, h6⟩ := C117_kappa hinv h
  rw [← hse] at h2
  subst h2
  refine ⟨_, rfl, by simp, ⟨_, rfl, alpha_shows hcdf _ h4⟩, fun j => ⟨_, ?_, gamma_shows hcdf _ _ (h6 j).2.1⟩⟩
  simp

/-- **C128.** Model "mixed": the table of the model "mean" followed by that of the model "kappa". -/
theorem C128_mixed {X : Fin n → Fin p → ℝ} {inv : ∀ q : ℕ, Matrix (Fin q) (Fin q) ℝ → Matrix (Fin q) (Fin q) ℝ}
    (hinv : ∀ (q : ℕ) (A : Matrix (Fin q) (Fin q) ℝ), IsUnit A.det → inv q A = A⁻¹)
    {theta : Fin n → ℝ} {i0 : ℝ → ℝ} {solve : ∀ q : ℕ, Matrix (Fin q) (Fin q) ℝ → (Fin q → ℝ) → (Fin q → ℝ)}
    {c : CLParams p} {s : CLStep (CLParams p) (Fin n → ℝ)}
    (h : mixedStep theta X (fun k => besselI 1 k / besselI 0 k) i0 solve c = .ok (some s)) {se : MixedSE n p}
    (hse : se = mixedSE X (fun k => besselI 1 k / besselI 0 k) inv ⟨c, s.mu, s.kappa, s.ll⟩) :
    ∃ rows, clSummary cdf (some (.mixed ⟨c, s.mu, s.kappa, s.ll⟩ se)) = .ok rows ∧ rows.length = p + (p + 1) ∧
      (∀ j : Fin p, ∃ row, rows[(j : ℕ)]? = some row ∧
        ShowsTest row "β" (some (j : ℕ)) (c.beta j) (se.beta j) (|c.beta j| / se.beta j)) ∧
      (∃ row, rows[p]? = some row ∧ ShowsTest row "α" none c.alpha se.alpha (c.alpha / se.alpha)) ∧
      ∀ j : Fin p, ∃ row, rows[p + (j + 1)]? = some row ∧
        ShowsTest row "γ" (some (j : ℕ)) (c.gamma j) (se.gamma j) (c.gamma j / se.gamma j) := by
  obtain ⟨B, I, se', -, -, h2, -, h4, -, h6, h7⟩ := C117_mixed hinv h
  rw [← hse] at h2
  subst h2
  refine ⟨_, rfl, by simp, fun j => ⟨_, ?_, beta_shows hcdf _ _ (h7 j).2.1⟩, ⟨_, ?_, alpha_shows hcdf _ h4⟩,
    fun j => ⟨_, ?_, gamma_shows hcdf _ _ (h6 j).2.1⟩⟩
  · rw [List.getElem?_append_left (by simp)]
    simp
  · rw [List.getElem?_append_right (by simp)]
    simp
  · rw [List.getElem?_append_right (by simp)]
    simp

end

/-- **C128.** The p-value of a row: between 0 (excluded) and 1, equal to 1 exactly for a t value of 0, strictly smaller
for a t value further from 0, the same for `t` and `-t`, and at most `1/t²`. -/
theorem C128_pvalue {row : CoefRow} {l : String} {i : Option ℕ} {c s t : ℝ} (h : ShowsTest row l i c s t) :
    ∃ q, row.p = some q ∧ 0 < q ∧ q ≤ 1 ∧ (q = 1 ↔ t = 0) ∧ q * t ^ 2 ≤ 1 ∧
      ∀ {row' : CoefRow} {l' : String} {i' : Option ℕ} {c' s' t' : ℝ}, ShowsTest row' l' i' c' s' t' →
        ∃ q', row'.p = some q' ∧ (q' < q ↔ |t| < |t'|) := by
  refine ⟨_, h.p, normalTails_pos t, normalTails_le_one t, ⟨fun h1 => ?_, fun h1 => ?_⟩, normalTails_mul_sq t, fun h' =>
    ⟨_, h'.p, ⟨fun hq => ?_, normalTails_lt⟩⟩⟩
  · by_contra h0
    have := normalTails_lt (s := 0) (t := t) (by rw [abs_zero]; exact abs_pos.2 h0)
    rw [normalTails_zero] at this
    linarith
  · rw [h1, normalTails_zero]
  · by_contra hc
    rcases (not_lt.1 hc).lt_or_eq with h1 | h1
    · exact absurd (normalTails_lt h1) (by linarith)
    · rw [← normalTails_abs t, ← h1, normalTails_abs] at hq
      exact lt_irrefl _ hq

/-- **C128.** The t values of `beta` are never negative, whatever the sign of the coefficient; those of `alpha` and
`gamma` have the sign of the estimate. -/
theorem C128_sign (i : ℕ) (c : ℝ) {s : ℝ} (hs : 0 < s) :
    (∃ t, (betaRow cdf i c s).t = some t ∧ 0 ≤ t ∧ (c ≠ 0 → 0 < t)) ∧
    (∃ t, (gammaRow cdf i c s).t = some t ∧ (t < 0 ↔ c < 0) ∧ (0 < t ↔ 0 < c)) ∧
    ∃ t, (alphaRow cdf c s).t = some t ∧ (t < 0 ↔ c < 0) ∧ (0 < t ↔ 0 < c) := by
  have h1 : c / s < 0 ↔ c < 0 := by rw [div_lt_iff₀ hs, zero_mul]
  have h2 : 0 < c / s ↔ 0 < c := by rw [lt_div_iff₀ hs, zero_mul]
  refine ⟨⟨|c / s|, by simp [betaRow, hs.ne'], abs_nonneg _, fun h => abs_pos.2 (div_ne_zero h hs.ne')⟩,
    ⟨c / s, by simp [gammaRow, hs.ne'], h1, h2⟩, ⟨c / s, by simp [alphaRow, hs.ne'], h1, h2⟩⟩

/-- **C128.** A standard error of zero: t value and p-value are `nan` and there are no stars. -/
theorem C128_no_se (i : ℕ) (c : ℝ) :
    ∀ row ∈ [betaRow cdf i c 0, alphaRow cdf c 0, gammaRow cdf i c 0], row.t = none ∧ row.p = none ∧ row.stars = "" := by
  intro row h
  simp only [List.mem_cons, List.not_mem_nil, or_false] at h
  rcases h with rfl | rfl | rfl <;> simp [betaRow, alphaRow, gammaRow, tPvalue, starsOf]

section

variable (hcdf : ∀ x, cdf x = (gaussianReal 0 1).real (Set.Iic x))
include hcdf

/-- **C128.** Model "mean": whenever the mean direction and its coefficients can be estimated together, the p-value
printed for a coefficient other than zero is strictly smaller than the p-value of the Wald test, which divides the
estimate by its asymptotic standard error. -/
theorem C128_mean_understates {X : Fin n → Fin p → ℝ}
    {inv : ∀ q : ℕ, Matrix (Fin q) (Fin q) ℝ → Matrix (Fin q) (Fin q) ℝ}
    (hinv : ∀ (q : ℕ) (A : Matrix (Fin q) (Fin q) ℝ), IsUnit A.det → inv q A = A⁻¹)
    (r : CLResult (CLParams p) ℝ) (hk : 0 ≤ r.kappa) {J : Matrix (Option (Fin p)) (Option (Fin p)) ℝ}
    (hJ : J = fisherInfo (fun (e : Option (Fin p) → ℝ) (i : Fin n) =>
      vonMises (e none + 2 * arctan (∑ k, X i k * e (some k))) r.kappa) (fun o => o.elim r.mu r.params.beta))
    (hreg : IsUnit J.det) (j : Fin p) (hb : r.params.beta j ≠ 0) :
    ∃ rows row q,
      clSummary (n := n) cdf (some (.mean r (meanSE X (fun k => besselI 1 k / besselI 0 k) inv r))) = .ok rows ∧
      rows[(j : ℕ)]? = some row ∧ row.p = some q ∧ q < normalTails (r.params.beta j / √(J⁻¹ (some j) (some j))) := by
  obtain ⟨rows, h1, -, h2⟩ := C128_mean hcdf hinv r hk (X := X) rfl
  obtain ⟨row, h3, h4⟩ := h2 j
  refine ⟨rows, row, _, h1, h3, h4.p, normalTails_lt ?_⟩
  have hs := (C117_mean (X := X) hinv r hk j).2.1
  have hlt := C117_mean_understates hinv r hk hJ hreg j
  have h5 := Real.lt_sqrt_of_sq_lt hlt
  rw [abs_div, abs_div, abs_abs, abs_of_pos hs, abs_of_nonneg (sqrt_nonneg _)]
  exact div_lt_div_of_pos_left (abs_pos.2 hb) hs h5

/-- **C128.** With a constant predictor nothing in the data tells `beta` from `mu`, but once the sample is large enough
the coefficient gets three stars, whatever value other than zero the fit ends with. -/
theorem C128_unidentified {X : Fin n → Fin 1 → ℝ} (hX : ∀ i, X i 0 = 1)
    {inv : ∀ q : ℕ, Matrix (Fin q) (Fin q) ℝ → Matrix (Fin q) (Fin q) ℝ}
    (hinv : ∀ (q : ℕ) (A : Matrix (Fin q) (Fin q) ℝ), IsUnit A.det → inv q A = A⁻¹)
    (r : CLResult (CLParams 1) ℝ) (hk : 0 ≤ r.kappa)
    (hn : 1000 * (1 + r.params.beta 0 ^ 2) ^ 2
      < 4 * n * (r.kappa * (besselI 1 r.kappa / besselI 0 r.kappa)) * r.params.beta 0 ^ 2) :
    (∀ b, ∃ mu, ∀ i t, vonMises (mu + 2 * arctan (X i 0 * b)) r.kappa t
      = vonMises (r.mu + 2 * arctan (X i 0 * r.params.beta 0)) r.kappa t) ∧
    ∃ row, clSummary (n := n) cdf (some (.mean r (meanSE X (fun k => besselI 1 k / besselI 0 k) inv r))) = .ok [row] ∧
      row.stars = "***" := by
  obtain ⟨h1, h2⟩ := C117_unidentified hinv hX r hk
  refine ⟨h1, ?_⟩
  obtain ⟨rows, h3, h4, h5⟩ := C128_mean hcdf hinv r hk (X := X) rfl
  obtain ⟨row, h6, h7⟩ := h5 0
  have hrows : rows = [row] := by
    match rows, h4 with
    | [a], _ => simpa using h6
  subst hrows
  refine ⟨row, h3, ?_⟩
  rw [h7.stars, (C05_significanceCode_spec _).1]
  have hs := (C117_mean (X := X) hinv r hk 0).2.1
  generalize (meanSE X (fun k => besselI 1 k / besselI 0 k) inv r).beta 0 = s at h2 hs h7 ⊢
  have hc := normalTails_mul_sq (|r.params.beta 0| / s)
  have ht : 1000 < (|r.params.beta 0| / s) ^ 2 := by
    rw [div_pow, sq_abs, lt_div_iff₀ (by positivity)]
    generalize 4 * (n : ℝ) * (r.kappa * (besselI 1 r.kappa / besselI 0 r.kappa)) = m at h2 hn
    generalize r.params.beta 0 = b at *
    by_contra hle
    have hle : b ^ 2 ≤ 1000 * s ^ 2 := not_lt.1 hle
    have hm : 0 < m := by
      by_contra hm
      have : m * b ^ 2 ≤ 0 := mul_nonpos_of_nonpos_of_nonneg (not_lt.1 hm) (sq_nonneg b)
      nlinarith [sq_nonneg (1 + b ^ 2)]
    nlinarith
  have hp := normalTails_pos (|r.params.beta 0| / s)
  by_contra hge
  have hge : 1 / 1000 ≤ normalTails (|r.params.beta 0| / s) := not_lt.1 hge
  nlinarith

end

end

/-- With a concentration of one and a coefficient of one every sample from some size on satisfies the condition. -/
example (r : CLResult (CLParams 1) ℝ) (hb : r.params.beta 0 = 1) (hk : r.kappa = 1) :
    ∃ N : ℕ, ∀ n ≥ N, 1000 * (1 + r.params.beta 0 ^ 2) ^ 2
      < 4 * n * (r.kappa * (besselI 1 r.kappa / besselI 0 r.kappa)) * r.params.beta 0 ^ 2 := by
  have hw : 0 < besselI 1 1 / besselI 0 1 := div_pos (besselI_pos 1 one_pos) (besselI_zero_pos 1)
  obtain ⟨N, hN⟩ := exists_nat_gt (1000 / (besselI 1 1 / besselI 0 1))
  refine ⟨N, fun n hn => ?_⟩
  have h1 : (N : ℝ) ≤ n := by exact_mod_cast hn
  rw [div_lt_iff₀ hw] at hN
  rw [hb, hk]
  nlinarith

/-- The coefficient `-2` with standard error `1`: the table shows a t value of `2` for `beta`, of `-2` for `gamma`, and
the same p-value. -/
example (cdf : ℝ → ℝ) : (betaRow cdf 0 (-2) 1).t = some 2 ∧ (gammaRow cdf 0 (-2) 1).t = some (-2) ∧
    (betaRow cdf 0 (-2) 1).p = (gammaRow cdf 0 (-2) 1).p := by
  simp [betaRow, gammaRow, tPvalue]

end Verif.Props
