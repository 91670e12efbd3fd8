import Verif.Props.Mixture
import Mathlib.Analysis.SpecialFunctions.Integrals.Basic

/-!
# C57, C58 (examples), C60, C93, C94: information criteria, mixture density, likelihood ascent
-/

set_option autoImplicit false

namespace Verif.Props

open Real Verif Verif.Spec

variable {Θ : Type} {K n : ℕ}

/-! ## C58: a fit that succeeds and one that does not -/

private lemma resp_one (lg : Fin 1 → Fin n → ℝ) (i : Fin n) : resp lg 0 i = 1 := by
  simpa using resp_sum lg Nat.one_pos i

private lemma movmFit_one (logpdf : ℝ × ℝ → ℝ → ℝ) (x y : ℝ) :
    (‖moment [x, y] [1, 1] 1‖ ≤ 1 / 10 ^ 12 →
      movmFit logpdf "radian" 360 0 1 1 (false, none) [fun _ : Fin 2 => (0 : Fin 1)] ![x, y] = .ok none) ∧
    (¬ ‖moment [x, y] [1, 1] 1‖ ≤ 1 / 10 ^ 12 →
      ∃ r, movmFit logpdf "radian" 360 0 1 1 (false, none) [fun _ : Fin 2 => (0 : Fin 1)] ![x, y] =
        .ok (some r)) := by
  have hinit : initLabels 100 [fun _ : Fin 2 => (0 : Fin 1)] = .ok fun _ => 0 := by
    rw [initLabels, if_neg (by norm_num)]
    have : ([fun _ : Fin 2 => (0 : Fin 1)].take 100).find? (fun l => decide (∀ c, ∃ i, l i = c)) =
        some fun _ => 0 := by
      rw [show [fun _ : Fin 2 => (0 : Fin 1)].take 100 = [fun _ => 0] from rfl, List.find?_cons_of_pos]
      simp only [decide_eq_true_eq]
      exact fun c => ⟨0, (Subsingleton.elim _ _)⟩
    rw [this]
  have hsub : ∀ p : Fin 2 → Bool, (∀ i, p i = true) → ((List.finRange 2).filter p).map
      (fun i => toRad "radian" 360 (![x, y] i)) = [x, y] := by
    intro p hp
    simp [List.finRange_succ, toRad, hp]
  have hones : ones [x, y] = [1, 1] := rfl
  constructor
  · intro h
    have hi : movmInit (fun i => toRad "radian" 360 (![x, y] i)) (fun _ : Fin 2 => (0 : Fin 1)) = none := by
      simp only [movmInit, allSome, Option.map_eq_none_iff, Option.bind_eq_none_iff]
      rw [hsub _ fun i => by simp, hones, circMeanAndR_eq, if_neg (by norm_num)]
      intro a ha
      rw [if_pos h] at ha
      simp at ha
    rw [movmFit, if_neg (by norm_num), hinit]
    simp only [Except.bind, hi]
  · intro h
    have hi : ∃ s, movmInit (fun i => toRad "radian" 360 (![x, y] i)) (fun _ : Fin 2 => (0 : Fin 1)) = some s := by
      simp only [movmInit, allSome]
      rw [hsub _ fun i => by simp, hones, circMeanAndR_eq, if_neg (by norm_num), if_neg h]
      exact ⟨_, rfl⟩
    obtain ⟨s, hs⟩ := hi
    have hst : ∃ v s', movmStep logpdf (fun i => toRad "radian" 360 (![x, y] i)) s = some (v, s') := by
      simp only [movmStep, allSome]
      have hw : (resp (logGamma lwOffset logpdf (fun i => toRad "radian" 360 (![x, y] i)) s.p s.th) 0) = fun _ => 1 :=
        funext fun i => resp_one _ i
      have ha : (fun i : Fin 2 => toRad "radian" 360 (![x, y] i)) = ![x, y] := by
        funext i
        simp [toRad]
      have hc : ∃ t, movmComp (fun i => toRad "radian" 360 (![x, y] i)) (fun _ : Fin 2 => (1 : ℝ)) (s.th 0) = some t := by
        rw [movmComp, if_neg, ha]
        · have e1 : List.ofFn ![x, y] = [x, y] := by simp
          have e2 : List.ofFn (fun _ : Fin 2 => (1 : ℝ)) = [1, 1] := by simp
          rw [e1, e2, circMeanAndR_eq, if_neg (by norm_num), if_neg h]
          exact ⟨_, rfl⟩
        · rw [isclose_zero _ _ _ (by simp)]
          norm_num [atolDefault]
      obtain ⟨t, ht⟩ := hc
      rw [hw, ht]
      exact ⟨_, _, rfl⟩
    obtain ⟨v, s', hst⟩ := hst
    refine ⟨⟨s', [v], false, none⟩, ?_⟩
    rw [movmFit, if_neg (by norm_num), hinit]
    simp only [Except.bind, hs, emFit, emLoop, hst]
    simp

/-- A case of `C58_movm`: one component fitted to the angles `0` and `π/2`. -/
example (logpdf : ℝ × ℝ → ℝ → ℝ) :
    ∃ r, movmFit logpdf "radian" 360 0 1 1 (false, none) [fun _ : Fin 2 => (0 : Fin 1)] ![0, π / 2] =
      .ok (some r) := by
  refine (movmFit_one logpdf 0 (π / 2)).2 ?_
  have h : (moment [0, π / 2] [1, 1] 1).re = 1 / 2 := by
    have := exp_re (π / 2)
    simp only [Complex.ofReal_div, Complex.ofReal_ofNat] at this
    simp [moment, expSum, this, Complex.div_re]
    norm_num
  intro hcon
  have := le_trans (Complex.abs_re_le_norm _) hcon
  rw [h] at this
  norm_num at this

/-- If the mean direction is undefined, so is the fit: one component fitted to the angles `0` and `π` leaves every
number `nan`. -/
theorem C58_nan (logpdf : ℝ × ℝ → ℝ → ℝ) :
    movmFit logpdf "radian" 360 0 1 1 (false, none) [fun _ : Fin 2 => (0 : Fin 1)] ![0, π] = .ok none := by
  refine (movmFit_one logpdf 0 π).1 ?_
  have : moment [0, π] [1, 1] 1 = 0 := by
    simp [moment, expSum]
  rw [this]
  norm_num

/-! ## C60: the mixture density -/

/-- `predict_density`: a convex combination of the component densities. It is non-negative, lies between the
smallest and the largest component density, has the period of the components, and integrates to one over any
turn, whenever the components have these properties. -/
theorem C60_density (pdf : Θ → ℝ → ℝ) (s : MixState Θ K) (hs : IsWeights s.p) :
    ((∀ c x, 0 ≤ pdf (s.th c) x) → ∀ x, 0 ≤ mixDensity pdf s x) ∧
      (∀ x lo hi, (∀ c, lo ≤ pdf (s.th c) x ∧ pdf (s.th c) x ≤ hi) →
        lo ≤ mixDensity pdf s x ∧ mixDensity pdf s x ≤ hi) ∧
      ((∀ c, Function.Periodic (pdf (s.th c)) (2 * π)) → Function.Periodic (mixDensity pdf s) (2 * π)) ∧
      ∀ t, (∀ c, IntervalIntegrable (pdf (s.th c)) MeasureTheory.volume t (t + 2 * π)) →
        (∀ c, ∫ x in t..t + 2 * π, pdf (s.th c) x = 1) → ∫ x in t..t + 2 * π, mixDensity pdf s x = 1 := by
  refine ⟨fun h x => Finset.sum_nonneg fun c _ => mul_nonneg (hs.1 c) (h c x), fun x lo hi h => ⟨?_, ?_⟩,
    fun h x => ?_, fun t hi h1 => ?_⟩
  · calc lo = ∑ c, s.p c * lo := by rw [← Finset.sum_mul, hs.2, one_mul]
      _ ≤ _ := Finset.sum_le_sum fun c _ => mul_le_mul_of_nonneg_left (h c).1 (hs.1 c)
  · calc mixDensity pdf s x ≤ ∑ c, s.p c * hi :=
          Finset.sum_le_sum fun c _ => mul_le_mul_of_nonneg_left (h c).2 (hs.1 c)
      _ = hi := by rw [← Finset.sum_mul, hs.2, one_mul]
  · simp only [mixDensity]
    exact Finset.sum_congr rfl fun c _ => by rw [h c x]
  · simp only [mixDensity]
    rw [intervalIntegral.integral_finsetSum fun c _ => (hi c).const_mul _]
    simp only [intervalIntegral.integral_const_mul, h1, mul_one]
    exact hs.2

/-- The density of a fitted `MovM` integrates to one whenever the component density does. -/
theorem C60_movm {logpdf : ℝ × ℝ → ℝ → ℝ} {unit : String} {fullCycle : ℝ} {burnin nIters : ℕ} {threshold : ℝ}
    {prev : Bool × Option ℕ} {draws : List (Fin n → Fin K)} {X : Fin n → ℝ} {r : EMResult (MixState (ℝ × ℝ) K)}
    (h : movmFit logpdf unit fullCycle burnin nIters threshold prev draws X = .ok (some r)) (pdf : ℝ × ℝ → ℝ → ℝ)
    (hi : ∀ m k, 0 ≤ m → m < 2 * π → 0 < k → IntervalIntegrable (pdf (m, k)) MeasureTheory.volume 0 (2 * π))
    (h1 : ∀ m k, 0 ≤ m → m < 2 * π → 0 < k → ∫ x in (0)..2 * π, pdf (m, k) x = 1) :
    ∫ x in (0)..2 * π, mixDensity pdf r.state x = 1 := by
  obtain ⟨hw, hth⟩ := C58_movm h
  have := (C60_density pdf r.state hw).2.2.2 0
  simp only [zero_add] at this
  have hk : ∀ c, 0 < (r.state.th c).2 := fun c => lt_of_lt_of_le (by norm_num) (hth c).2.2
  exact this (fun c => hi _ _ (hth c).1 (hth c).2.1 (hk c)) (fun c => h1 _ _ (hth c).1 (hth c).2.1 (hk c))

/-- A case of `C60_density`: the uniform density and the cardioid density `(1 + cos x)/2π`, equal weights. -/
example : ∫ x in (0 : ℝ)..0 + 2 * π, mixDensity (fun (k : ℝ) x => (1 + k * cos x) / (2 * π))
    (⟨fun _ => 1 / 2, ![0, 1]⟩ : MixState ℝ 2) x = 1 := by
  refine (C60_density _ _ ⟨fun c => by norm_num, by norm_num⟩).2.2.2 0 (fun c => ?_) (fun c => ?_)
  · exact Continuous.intervalIntegrable (by fun_prop) _ _
  · rw [intervalIntegral.integral_div, intervalIntegral.integral_add (by simp) (Continuous.intervalIntegrable (by fun_prop) _ _),
      intervalIntegral.integral_const_mul, integral_cos]
    simp

/-! ## C57: information criteria -/

/-- AIC and BIC of circular-linear regression: the penalty counts the coefficients of the linear predictors
(and the intercept of the concentration), never the mean direction; the two criteria differ by
`n_params (ln n - 2)`; unknown model types are refused. -/
theorem C57_regression (nb ng m : ℕ) (ll : ℝ) :
    (∀ mt k, (mt, k) ∈ [("mean", nb), ("kappa", 1 + ng), ("mixed", 1 + nb + ng)] →
      ∃ aic bic, clAIC mt nb ng ll = .ok aic ∧ clBIC mt nb ng m ll = .ok bic ∧
        aic = 2 * k - 2 * ll ∧ bic = k * log m - 2 * ll ∧ bic - aic = k * (log m - 2)) ∧
    ∀ mt, mt ≠ "mean" → mt ≠ "kappa" → mt ≠ "mixed" →
      clAIC mt nb ng ll = .error .valueError ∧ clBIC mt nb ng m ll = .error .valueError := by
  constructor
  · intro mt k h
    simp only [List.mem_cons, Prod.mk.injEq, List.not_mem_nil, or_false] at h
    rcases h with ⟨rfl, rfl⟩ | ⟨rfl, rfl⟩ | ⟨rfl, rfl⟩
    all_goals
      refine ⟨_, _, rfl, rfl, ?_, ?_, ?_⟩ <;> push_cast <;> ring
  · intro mt h1 h2 h3
    constructor
    · rw [clAIC, clNumParams, if_neg h1, if_neg h2, if_neg h3]
      rfl
    · rw [clBIC, clNumParams, if_neg h1, if_neg h2, if_neg h3]
      rfl

/-- The log-likelihood of a mixture with weights `w`. -/
noncomputable def mixLogLik (pdf : Θ → ℝ → ℝ) (w : Fin K → ℝ) (th : Fin K → Θ) (a : Fin n → ℝ) : ℝ :=
  ∑ i, log (∑ c, w c * pdf (th c) (a i))

private lemma nll_offset (logpdf : Θ → ℝ → ℝ) (a : Fin n → ℝ) (p : Fin K → ℝ) (th : Fin K → Θ) (hp : ∀ c, 0 ≤ p c) :
    mixNLL (logGamma lwOffset logpdf a p th) =
      -mixLogLik (fun t x => exp (logpdf t x)) (fun c => p c + 1 / 10 ^ 32) th a := by
  simp only [mixNLL, logNorm, logGamma, exp_add, mixLogLik]
  congr 1
  refine Finset.sum_congr rfl fun i _ => ?_
  congr 1
  refine Finset.sum_congr rfl fun c _ => ?_
  rw [lwOffset, exp_log (add_pos_of_nonneg_of_pos (hp c) (by positivity))]

/-- The mixture BICs are `-2` log-likelihood plus `ln n` times the number of free parameters: `3K - 1` for von
Mises components, `5K - 1` for Kato-Jones components, `K m + K - 1` in general (here with data in radians). -/
theorem C57_mixture (a : Fin n → ℝ) :
    (∀ (logpdf : ℝ × ℝ → ℝ → ℝ) (s : MixState (ℝ × ℝ) K), (∀ c, 0 ≤ s.p c) →
      movmBIC logpdf a s = -2 * mixLogLik (fun t x => exp (logpdf t x)) (fun c => s.p c + 1 / 10 ^ 32) s.th a +
        (2 * K + (K - 1)) * log n) ∧
    (∀ (logpdf : Θ → ℝ → ℝ) (s : MixState Θ K), (∀ c, 1 / 10 ^ 300 ≤ s.p c) →
      mokjBIC logpdf a s = -2 * mixLogLik (fun t x => exp (logpdf t x)) s.p s.th a +
        (4 * K + (K - 1)) * log n) ∧
    (∀ (logpdf : Θ → ℝ → ℝ) (s : MixState Θ K) (m : ℕ) (fullCycle : ℝ), (∀ c, 0 ≤ s.p c) →
      mocdBIC logpdf "radian" fullCycle m a s =
        -2 * mixLogLik (fun t x => exp (logpdf t x)) (fun c => s.p c + 1 / 10 ^ 32) s.th a +
        (m * K + (K - 1)) * log n) := by
  refine ⟨fun logpdf s hp => ?_, fun logpdf s hp => ?_, fun logpdf s m fullCycle hp => ?_⟩
  · rw [movmBIC, nll_offset _ _ _ _ hp]
    ring
  · have : mixNLL (logGamma lwClip logpdf a s.p s.th) = -mixLogLik (fun t x => exp (logpdf t x)) s.p s.th a := by
      simp only [mixNLL, logNorm, logGamma, exp_add, mixLogLik]
      congr 1
      refine Finset.sum_congr rfl fun i _ => ?_
      congr 1
      refine Finset.sum_congr rfl fun c _ => ?_
      rw [lwClip, max_eq_left (hp c), exp_log (lt_of_lt_of_le (by positivity) (hp c))]
    rw [mokjBIC, this]
    ring
  · have : ∑ i, mocdScoreSample logpdf "radian" fullCycle s (a i) =
        mixLogLik (fun t x => exp (logpdf t x)) (fun c => s.p c + 1 / 10 ^ 32) s.th a := by
      simp only [mocdScoreSample, logNorm, logGamma, exp_add, mixLogLik, toRad, if_true]
      refine Finset.sum_congr rfl fun i _ => ?_
      congr 1
      refine Finset.sum_congr rfl fun c _ => ?_
      rw [lwOffset, exp_log (add_pos_of_nonneg_of_pos (hp c) (by positivity))]
    simp only [mocdBIC, this]
    ring

/-! ## C93: `MoCD.bic` with degrees -/

/-- With `unit="degree"` the BIC of `MoCD` is that of data converted twice: the likelihood is evaluated at
`2π α / full_cycle`, where `α` are the fitted angles, already in radians. -/
theorem C93_degree (logpdf : Θ → ℝ → ℝ) (s : MixState Θ K) (m : ℕ) (fullCycle : ℝ) (X : Fin n → ℝ)
    (hp : ∀ c, 0 ≤ s.p c) :
    mocdBIC logpdf "degree" fullCycle m (fun i => toRad "degree" fullCycle (X i)) s =
      -2 * mixLogLik (fun t x => exp (logpdf t x)) (fun c => s.p c + 1 / 10 ^ 32) s.th
          (fun i => 2 * π * (2 * π * X i / fullCycle) / fullCycle) +
        (m * K + (K - 1)) * log n := by
  have : ∑ i, mocdScoreSample logpdf "degree" fullCycle s (toRad "degree" fullCycle (X i)) =
      mixLogLik (fun t x => exp (logpdf t x)) (fun c => s.p c + 1 / 10 ^ 32) s.th
        (fun i => 2 * π * (2 * π * X i / fullCycle) / fullCycle) := by
    simp only [mocdScoreSample, logNorm, logGamma, exp_add, mixLogLik, toRad, data2rad]
    refine Finset.sum_congr rfl fun i _ => ?_
    congr 1
    refine Finset.sum_congr rfl fun c _ => ?_
    rw [lwOffset, exp_log (add_pos_of_nonneg_of_pos (hp c) (by positivity))]
    simp only [if_neg (show ("degree" : String) ≠ "radian" by decide)]
  simp only [mocdBIC, this]
  ring

/-- So it is not the BIC of the fitted model: for one von Mises component (concentration 1, mean 0, up to the
constant) and the single observation 180° the number returned is smaller than the true one by more than 2. -/
theorem C93_fails :
    mocdBIC (fun (k : ℝ) x => k * cos x) "degree" 360 2 (fun i => toRad "degree" 360 (![180] i))
        (⟨fun _ => 1, fun _ => 1⟩ : MixState ℝ 1) + 2 <
      -2 * mixLogLik (fun (k : ℝ) x => exp (k * cos x)) (fun _ : Fin 1 => 1 + 1 / 10 ^ 32) (fun _ => (1 : ℝ))
          (fun i => toRad "degree" 360 (![180] i)) + (2 * 1 + (1 - 1)) * log (1 : ℕ) := by
  rw [C93_degree _ _ _ _ _ fun _ => zero_le_one]
  simp only [mixLogLik, Finset.univ_unique, Fin.default_eq_zero, Finset.sum_singleton, one_mul, toRad, data2rad,
    if_neg (show ("degree" : String) ≠ "radian" by decide)]
  rw [log_mul (by norm_num) (exp_pos _).ne', log_mul (by norm_num) (exp_pos _).ne', log_exp, log_exp]
  have e1 : cos (2 * π * ![180] 0 / 360) = -1 := by
    rw [← cos_pi]
    congr 1
    simp
    ring
  have hcos : 0 < cos (2 * π * (2 * π * ![180] 0 / 360) / 360) := by
    apply cos_pos_of_mem_Ioo
    have hpi := pi_pos
    have h4 := pi_le_four
    simp only [Matrix.cons_val_zero]
    constructor
    · have : 0 ≤ 2 * π * (2 * π * 180 / 360) / 360 := by positivity
      linarith
    · nlinarith
  norm_num at e1 hcos ⊢
  rw [e1]
  linarith

end Verif.Props
