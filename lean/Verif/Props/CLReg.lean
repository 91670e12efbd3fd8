import Verif.Model.Regression
import Verif.Spec.Circle
import Verif.Lemmas.Circle
import Verif.Lemmas.Descriptive
import Mathlib.Analysis.Calculus.Deriv.Pow
import Mathlib.Analysis.SpecialFunctions.Log.Deriv
import Mathlib.Analysis.SpecialFunctions.Trigonometric.ArctanDeriv

/-! # C56: circular-linear regression (`CLRegression`): the loop, and what the reported numbers mean -/

set_option autoImplicit false

namespace Verif.Props

open Real Verif Verif.Spec

/-- Specification: a run of the loop. Pass `j` evaluates the step at the coefficients `q j` and obtains
`s j`, whose new coefficients are `q (j + 1)`. -/
def IsRun {P K : Type} (step : P → Except PyErr (Option (CLStep P K))) (start : P) (q : ℕ → P) (s : ℕ → CLStep P K)
    (last : ℕ) : Prop :=
  q 0 = start ∧ ∀ j ≤ last, step (q j) = .ok (some (s j)) ∧ q (j + 1) = (s j).next

/-- Specification: pass `j` is within the tolerance of the pass before it. -/
def Settled {P K : Type} (tol : ℝ) (s : ℕ → CLStep P K) (j : ℕ) : Prop :=
  0 < j ∧ |(s j).ll - (s (j - 1)).ll| < tol

private lemma loop_run {P K : Type} (step : P → Except PyErr (Option (CLStep P K))) (tol : ℝ) (start : P) :
    ∀ (k done : ℕ) (q : ℕ → P) (s : ℕ → CLStep P K) (res : CLResult P K),
      q 0 = start → (∀ j < done, step (q j) = .ok (some (s j)) ∧ q (j + 1) = (s j).next ∧ ¬ Settled tol s j) →
      clLoop step tol k (q done) (if done = 0 then none else some (s (done - 1)).ll)
        (if done = 0 then none else some (s (done - 1))) = .ok (some res) →
      ∃ q s last, IsRun step start q s last ∧ last < done + k ∧ (∀ j < last, ¬ Settled tol s j) ∧
        ((Settled tol s last ∧ res = ⟨q last, (s last).mu, (s last).kappa, (s last).ll⟩) ∨
          (¬ Settled tol s last ∧ last + 1 = done + k ∧
            res = ⟨q (last + 1), (s last).mu, (s last).kappa, (s last).ll⟩)) := by
  intro k
  induction k with
  | zero =>
    intro done q s res h0 hj h
    rcases Nat.eq_zero_or_pos done with rfl | hd
    · simp [clLoop] at h
    · rw [if_neg hd.ne', if_neg hd.ne'] at h
      simp only [clLoop, Except.ok.injEq, Option.some.injEq] at h
      refine ⟨q, s, done - 1, ⟨h0, fun j hjd => ⟨(hj j (by omega)).1, (hj j (by omega)).2.1⟩⟩, by omega,
        fun j hjd => (hj j (by omega)).2.2, Or.inr ⟨(hj _ (by omega)).2.2, by omega, ?_⟩⟩
      rw [← h, show done - 1 + 1 = done by omega]
  | succ k ih =>
    intro done q s res h0 hj h
    rw [clLoop] at h
    cases hst : step (q done) with
    | error e => rw [hst] at h; simp [Except.bind] at h
    | ok o =>
      cases o with
      | none => rw [hst] at h; simp [Except.bind] at h
      | some t =>
        rw [hst] at h
        simp only [Except.bind] at h
        -- extend the run by this pass
        let s' : ℕ → CLStep P K := fun j => if j = done then t else s j
        let q' : ℕ → P := fun j => if j = done + 1 then t.next else q j
        have hs'd : s' done = t := if_pos rfl
        have hs'lt : ∀ j, j < done → s' j = s j := fun j hjd => if_neg (by omega)
        have hq'le : ∀ j, j ≤ done → q' j = q j := fun j hjd => if_neg (by omega)
        have hset : ∀ j, j < done → ¬ Settled tol s' j := by
          intro j hjd hse
          refine (hj j hjd).2.2 ⟨hse.1, ?_⟩
          have := hse.2
          rwa [hs'lt j hjd, hs'lt (j - 1) (by omega)] at this
        have hrun : IsRun step start q' s' done := by
          refine ⟨by rw [hq'le 0 (by omega), h0], fun j hjd => ?_⟩
          rcases Nat.lt_or_eq_of_le hjd with hlt | rfl
          · rw [hq'le j hjd, hs'lt j hlt, hq'le (j + 1) hlt]
            exact ⟨(hj j hlt).1, (hj j hlt).2.1⟩
          · rw [hq'le j le_rfl, hs'd]
            exact ⟨hst, if_pos rfl⟩
        have hcond : (∃ o, (if done = 0 then none else some (s (done - 1)).ll) = some o ∧ |t.ll - o| < tol)
            ↔ Settled tol s' done := by
          rcases Nat.eq_zero_or_pos done with rfl | hd
          · simp [Settled]
          · rw [if_neg hd.ne']
            constructor
            · rintro ⟨o, ho, hlt⟩
              refine ⟨hd, ?_⟩
              rw [hs'd, hs'lt _ (by omega), Option.some.inj ho]
              exact hlt
            · rintro ⟨-, hlt⟩
              rw [hs'd, hs'lt _ (by omega)] at hlt
              exact ⟨_, rfl, hlt⟩
        by_cases hc : ∃ o, (if done = 0 then none else some (s (done - 1)).ll) = some o ∧ |t.ll - o| < tol
        · rw [if_pos hc] at h
          simp only [Except.ok.injEq, Option.some.injEq] at h
          refine ⟨q', s', done, hrun, by omega, hset, Or.inl ⟨hcond.1 hc, ?_⟩⟩
          rw [← h, hs'd, hq'le done le_rfl]
        · rw [if_neg hc] at h
          have := ih (done + 1) q' s' res hrun.1 (fun j hjd => ?_) ?_
          · obtain ⟨q2, s2, last, e1, e2, e3, e4⟩ := this
            exact ⟨q2, s2, last, e1, by omega, e3, by rwa [show done + 1 + k = done + (k + 1) by omega] at e4⟩
          · refine ⟨(hrun.2 j (by omega)).1, (hrun.2 j (by omega)).2, ?_⟩
            rcases Nat.lt_or_eq_of_le (Nat.le_of_lt_succ hjd) with hlt | rfl
            · exact hset j hlt
            · exact fun hse => hc (hcond.2 hse)
          · rw [if_neg (by omega), if_neg (by omega), show done + 1 - 1 = done by omega, hs'd,
              show q' (done + 1) = t.next from if_pos rfl]
            exact h

/-- The fit returns after the first pass whose log-likelihood is within `tol` of the pass before it; the
reported coefficients are then the ones at which `mu`, `kappa` and the log-likelihood were computed. If there
is no such pass it returns after `max_iter` passes, and the reported coefficients are one update ahead of the
reported `mu`, `kappa` and log-likelihood. -/
theorem C56_loop {P K : Type} (step : P → Except PyErr (Option (CLStep P K))) (tol : ℝ) (maxIter : ℕ) (start : P)
    (res : CLResult P K) (h : clFit step tol maxIter start = .ok (some res)) :
    ∃ q s last, IsRun step start q s last ∧ last < maxIter ∧ (∀ j < last, ¬ Settled tol s j) ∧
      ((Settled tol s last ∧ res = ⟨q last, (s last).mu, (s last).kappa, (s last).ll⟩) ∨
        (¬ Settled tol s last ∧ last + 1 = maxIter ∧
          res = ⟨q (last + 1), (s last).mu, (s last).kappa, (s last).ll⟩)) := by
  have h' := loop_run step tol start maxIter 0 (fun _ => start)
    (fun _ => ⟨res.mu, res.kappa, res.ll, start⟩) res rfl
  simp only [not_lt_zero, false_imp_iff, implies_true, if_true, zero_add] at h'
  exact h' trivial h

/-- The number of passes is at least one: with `max_iter = 0` the fit fails (the code reads variables that
were never set). -/
theorem C56_no_pass {P K : Type} (step : P → Except PyErr (Option (CLStep P K))) (tol : ℝ) (start : P) :
    clFit step tol 0 start = .error .unboundLocalError := rfl

/-- An error raised in a pass is not swallowed. -/
theorem C56_error {P K : Type} (step : P → Except PyErr (Option (CLStep P K))) (tol : ℝ) (k : ℕ) (start : P)
    (e : PyErr) (h : step start = .error e) : clFit step tol (k + 1) start = .error e := by
  unfold clFit clLoop
  rw [h]; rfl

section Steps

variable {n p : ℕ} {theta : Fin n → ℝ} {X : Fin n → Fin p → ℝ} {A1 i0 : ℝ → ℝ}
  {solve : ∀ q : ℕ, Matrix (Fin q) (Fin q) ℝ → (Fin q → ℝ) → (Fin q → ℝ)}

/-- Specification: the von Mises log-likelihood of the responses (up to the constant `n log 2π`) with mean
directions `mu + 2 arctan(xᵢ·beta)` and concentrations `kappa i`. -/
noncomputable def vmLogLik {n p : ℕ} (i0 : ℝ → ℝ) (theta : Fin n → ℝ) (X : Fin n → Fin p → ℝ) (mu : ℝ)
    (kappa : Fin n → ℝ) (beta : Fin p → ℝ) : ℝ :=
  ∑ i, (kappa i * cos (theta i - (mu + 2 * arctan (∑ j, X i j * beta j))) - log (i0 (kappa i)))

/-- The weighted mean direction maximises `Σ κᵢ cos(rᵢ - μ)`. -/
private lemma mean_dir_max (k r : Fin n → ℝ) (m : ℝ) :
    ∑ i, k i * cos (r i - m) ≤ ∑ i, k i * cos (r i - arctan2 (∑ i, k i * sin (r i)) (∑ i, k i * cos (r i))) := by
  set S := ∑ i, k i * sin (r i) with hS
  set C := ∑ i, k i * cos (r i) with hC
  have e : ∀ t, ∑ i, k i * cos (r i - t) = C * cos t + S * sin t := by
    intro t
    rw [hS, hC, Finset.sum_mul, Finset.sum_mul, ← Finset.sum_add_distrib]
    exact Finset.sum_congr rfl fun i _ => by rw [cos_sub]; ring
  rw [e, e]
  set z : ℂ := ⟨C, S⟩ with hz
  have h1 : C = ‖z‖ * cos (arctan2 S C) := (Complex.norm_mul_cos_arg z).symm
  have h2 : S = ‖z‖ * sin (arctan2 S C) := (Complex.norm_mul_sin_arg z).symm
  have h3 := cos_sq_add_sin_sq (arctan2 S C)
  generalize arctan2 S C = a at h1 h2 h3
  rw [h1, h2]
  have h4 : ‖z‖ * cos a * cos m + ‖z‖ * sin a * sin m = ‖z‖ * cos (a - m) := by rw [cos_sub]; ring
  have h5 : ‖z‖ * cos a * cos a + ‖z‖ * sin a * sin a = ‖z‖ := by linear_combination ‖z‖ * h3
  rw [h4, h5]
  nlinarith [cos_le_one (a - m), norm_nonneg z]

private lemma arctan2_scale {c : ℝ} (hc : 0 < c) (S C : ℝ) : arctan2 (S / c) (C / c) = arctan2 S C := by
  unfold arctan2
  have : (⟨C / c, S / c⟩ : ℂ) = ((c⁻¹ : ℝ) : ℂ) * ⟨C, S⟩ := by
    apply Complex.ext
    · rw [Complex.re_ofReal_mul]; exact div_eq_inv_mul _ _
    · rw [Complex.im_ofReal_mul]; exact div_eq_inv_mul _ _
  rw [this, Complex.arg_real_mul _ (inv_pos.2 hc)]

/-- Model "mean": the step reports the log-likelihood at its coefficients; `mu` is the best mean direction
for them, and `kappa` is the usual estimate from the mean resultant length of the deviations. -/
theorem C56_mean {c : CLParams p} {s : CLStep (CLParams p) ℝ} (hn : 0 < n)
    (h : meanStep theta X A1 i0 solve c = .ok (some s)) :
    s.ll = vmLogLik i0 theta X s.mu (fun _ => s.kappa) c.beta ∧
    (0 ≤ s.kappa → ∀ mu', vmLogLik i0 theta X mu' (fun _ => s.kappa) c.beta ≤ s.ll) ∧
    a1inv ‖(∑ i, Complex.exp (((theta i - 2 * arctan (∑ j, X i j * c.beta j) : ℝ) : ℂ) * Complex.I)) / n‖
      = some s.kappa := by
  unfold meanStep at h
  simp only [Except.ok.injEq, Option.map_eq_some_iff] at h
  obtain ⟨k, hk, rfl⟩ := h
  simp only
  have hn' : (0 : ℝ) < n := by exact_mod_cast hn
  have hll : ∀ m, vmLogLik i0 theta X m (fun _ => k) c.beta
      = -n * log (i0 k) + k * ∑ i, cos (rawDev theta X c.beta i - m) := by
    intro m
    unfold vmLogLik rawDev linPred
    rw [Finset.sum_sub_distrib, Finset.mul_sum]
    simp only [Finset.sum_const, Finset.card_univ, Fintype.card_fin, nsmul_eq_mul]
    rw [sub_eq_add_neg, add_comm, neg_mul]
    congr 1
    exact Finset.sum_congr rfl fun i _ => by congr 2; ring
  refine ⟨(hll _).symm, fun hk0 mu' => ?_, ?_⟩
  · rw [hll]
    refine add_le_add le_rfl (mul_le_mul_of_nonneg_left ?_ hk0)
    have := mean_dir_max (fun _ => (1 : ℝ)) (rawDev theta X c.beta) mu'
    simp only [one_mul] at this
    rwa [arctan2_scale hn']
  · rw [← hk]
    congr 1
    rw [norm_div, Complex.norm_natCast]
    have e : ‖∑ i, Complex.exp (((theta i - 2 * arctan (∑ j, X i j * c.beta j) : ℝ) : ℂ) * Complex.I)‖
        = sqrt ((∑ i, sin (rawDev theta X c.beta i)) ^ 2 + (∑ i, cos (rawDev theta X c.beta i)) ^ 2) := by
      rw [Complex.norm_def, Complex.normSq_apply, Complex.re_sum, Complex.im_sum]
      simp only [Complex.exp_ofReal_mul_I_re, Complex.exp_ofReal_mul_I_im]
      congr 1
      unfold rawDev linPred
      ring
    rw [e, div_pow, div_pow, ← add_div, Real.sqrt_div' _ (by positivity), Real.sqrt_sq hn'.le]

/-- Model "kappa": the step reports the log-likelihood at its coefficients, with a common mean direction; `mu`
is the best one, and `kappa` the exponential of the linear predictor. -/
theorem C56_kappa {c : CLParams p} {s : CLStep (CLParams p) (Fin n → ℝ)}
    (h : kappaStep theta X A1 i0 solve c = .ok (some s)) :
    s.kappa = (fun i => exp (c.alpha + ∑ j, X i j * c.gamma j)) ∧
    s.ll = vmLogLik i0 theta X s.mu s.kappa 0 ∧ ∀ mu', vmLogLik i0 theta X mu' s.kappa 0 ≤ s.ll := by
  unfold kappaStep at h
  simp only at h
  generalize gammaUpdate X A1 solve _ _ = g at h
  cases g with
  | error e => simp [Except.map] at h
  | ok u =>
    simp only [Except.map, Except.ok.injEq, Option.some.injEq] at h
    subst h
    simp only
    have hll : ∀ m (k : Fin n → ℝ), vmLogLik i0 theta X m k 0
        = -(∑ i, log (i0 (k i))) + ∑ i, k i * cos (theta i - m) := by
      intro m k
      unfold vmLogLik
      rw [Finset.sum_sub_distrib]
      simp only [Pi.zero_apply, mul_zero, Finset.sum_const_zero, arctan_zero, add_zero]
      ring
    refine ⟨rfl, (hll _ _).symm, fun mu' => ?_⟩
    rw [hll]
    exact add_le_add le_rfl (mean_dir_max _ _ _)

/-- Model "mixed": the step reports the log-likelihood at its coefficients; `mu` is the best mean direction for
them, and `kappa` the exponential of the linear predictor. -/
theorem C56_mixed {c : CLParams p} {s : CLStep (CLParams p) (Fin n → ℝ)}
    (h : mixedStep theta X A1 i0 solve c = .ok (some s)) :
    s.kappa = (fun i => exp (c.alpha + ∑ j, X i j * c.gamma j)) ∧
    s.ll = vmLogLik i0 theta X s.mu s.kappa c.beta ∧
    ∀ mu', vmLogLik i0 theta X mu' s.kappa c.beta ≤ s.ll := by
  unfold mixedStep at h
  simp only at h
  generalize gammaUpdate X A1 solve _ _ = g at h
  cases g with
  | error e => simp [Except.map] at h
  | ok u =>
    simp only [Except.map, Except.ok.injEq, Option.some.injEq] at h
    subst h
    simp only
    have hll : ∀ m (k : Fin n → ℝ), vmLogLik i0 theta X m k c.beta
        = -(∑ i, log (i0 (k i))) + ∑ i, k i * cos (rawDev theta X c.beta i - m) := by
      intro m k
      unfold vmLogLik rawDev linPred
      rw [Finset.sum_sub_distrib, sub_eq_add_neg, add_comm]
      congr 1
      exact Finset.sum_congr rfl fun i _ => by congr 2; ring
    refine ⟨rfl, (hll _ _).symm, fun mu' => ?_⟩
    rw [hll]
    exact add_le_add le_rfl (mean_dir_max _ _ _)

private lemma run_inv {P K : Type} {step : P → Except PyErr (Option (CLStep P K))} {start : P} {q : ℕ → P}
    {s : ℕ → CLStep P K} {last : ℕ} (hr : IsRun step start q s last) (I : P → Prop) (h0 : I start)
    (hs : ∀ c t, I c → step c = .ok (some t) → I t.next) : ∀ j, j ≤ last + 1 → I (q j)
  | 0, _ => by rw [hr.1]; exact h0
  | j + 1, hj => by
    rw [(hr.2 j (by omega)).2]
    exact hs _ _ (run_inv hr I h0 hs j (by omega)) (hr.2 j (by omega)).1

/-- Only the coefficients of the chosen model are fitted: "mean" reports `alpha` and `gamma` as they were at
the start, "kappa" reports `beta` as it was at the start (zero, unless the caller set it). -/
theorem C56_untouched (tol : ℝ) (maxIter : ℕ) (start : CLParams p) :
    (∀ res, clFit (meanStep theta X A1 i0 solve) tol maxIter start = .ok (some res) →
      res.params.alpha = start.alpha ∧ res.params.gamma = start.gamma) ∧
    (∀ res, clFit (kappaStep theta X A1 i0 solve) tol maxIter start = .ok (some res) →
      res.params.beta = start.beta) := by
  constructor
  · intro res h
    obtain ⟨q, s, last, hr, -, -, h4⟩ := C56_loop _ _ _ _ _ h
    have hi := run_inv hr (fun c => c.alpha = start.alpha ∧ c.gamma = start.gamma) ⟨rfl, rfl⟩ (by
      intro c t hc ht
      unfold meanStep at ht
      simp only [Except.ok.injEq, Option.map_eq_some_iff] at ht
      obtain ⟨k, -, rfl⟩ := ht
      exact hc)
    rcases h4 with ⟨-, rfl⟩ | ⟨-, -, rfl⟩
    · exact hi last (by omega)
    · exact hi (last + 1) le_rfl
  · intro res h
    obtain ⟨q, s, last, hr, -, -, h4⟩ := C56_loop _ _ _ _ _ h
    have hi := run_inv hr (fun c => c.beta = start.beta) rfl (by
      intro c t hc ht
      unfold kappaStep at ht
      simp only at ht
      generalize gammaUpdate X A1 solve _ _ = g at ht
      cases g with
      | error e => simp [Except.map] at ht
      | ok u =>
        simp only [Except.map, Except.ok.injEq, Option.some.injEq] at ht
        subst ht
        exact hc)
    rcases h4 with ⟨-, rfl⟩ | ⟨-, -, rfl⟩
    · exact hi last (by omega)
    · exact hi (last + 1) le_rfl

end Steps

/-- A converged fit of the model "mixed" is consistent: its concentrations belong to its coefficients, and
its log-likelihood is that of its coefficients, maximal over the mean direction. -/
theorem C56_converged {n p : ℕ} {theta : Fin n → ℝ} {X : Fin n → Fin p → ℝ} {A1 i0 : ℝ → ℝ}
    {solve : ∀ q : ℕ, Matrix (Fin q) (Fin q) ℝ → (Fin q → ℝ) → (Fin q → ℝ)} {tol : ℝ} {maxIter : ℕ}
    {start : CLParams p} {res : CLResult (CLParams p) (Fin n → ℝ)}
    (h : clFit (mixedStep theta X A1 i0 solve) tol maxIter start = .ok (some res))
    (hc : ∀ q s, IsRun (mixedStep theta X A1 i0 solve) start q s (maxIter - 1) →
      ∃ j < maxIter, Settled tol s j) :
    res.kappa = (fun i => exp (res.params.alpha + ∑ j, X i j * res.params.gamma j)) ∧
    res.ll = vmLogLik i0 theta X res.mu res.kappa res.params.beta ∧
    ∀ mu', vmLogLik i0 theta X mu' res.kappa res.params.beta ≤ res.ll := by
  obtain ⟨q, s, last, hr, h2, h3, h4⟩ := C56_loop _ _ _ _ _ h
  rcases h4 with ⟨-, rfl⟩ | ⟨hns, hlast, -⟩
  · exact C56_mixed (hr.2 last le_rfl).1
  · exfalso
    have : maxIter - 1 = last := by omega
    rw [this] at hc
    obtain ⟨j, hj, hset⟩ := hc q s hr
    rcases Nat.lt_or_ge j last with h5 | h5
    · exact h3 j h5 hset
    · have : j = last := by omega
      exact hns (this ▸ hset)

/-! ### When the loop stops by `max_iter` the reported numbers disagree with the reported coefficients -/

/-- Two opposite responses and a constant predictor, model "kappa", one pass: the reported concentration is 1,
that of the reported coefficients is smaller. `A1` need only be near its true value at 1 and `solve` need only
solve regular systems. -/
theorem C56_stale {A1 i0 : ℝ → ℝ}
    {solve : ∀ q : ℕ, Matrix (Fin q) (Fin q) ℝ → (Fin q → ℝ) → (Fin q → ℝ)}
    (hA : 4 / 10 ≤ A1 1 ∧ A1 1 ≤ 1 / 2)
    (hs : ∀ (q : ℕ) (A : Matrix (Fin q) (Fin q) ℝ) (b : Fin q → ℝ), IsUnit A.det → A.mulVec (solve q A b) = b) (tol : ℝ) :
    ∃ (theta : Fin 2 → ℝ) (X : Fin 2 → Fin 1 → ℝ) (start : CLParams 1) (res : CLResult (CLParams 1) (Fin 2 → ℝ)),
      clFit (kappaStep theta X A1 i0 solve) tol 1 start = .ok (some res) ∧
      (∀ i, res.kappa i = 1) ∧ ∀ i, exp (res.params.alpha + ∑ j, X i j * res.params.gamma j) < 1 := by
  refine ⟨![π / 2, -(π / 2)], fun _ _ => 0, ⟨0, 0, 0⟩, ?_⟩
  have hk : kappaOf (n := 2) (p := 1) (fun _ _ => 0) 0 0 = fun _ => 1 := by
    funext i; simp [kappaOf, linPred]
  set a := A1 1 with ha
  have hprime : a1Prime A1 1 = 1 - a - a ^ 2 := by unfold a1Prime; rw [← ha]; ring
  have hp : 1 / 4 ≤ a1Prime A1 1 := by rw [hprime]; nlinarith [hA.1, hA.2]
  have hmu : arctan2 (∑ i : Fin 2, (1 : ℝ) * sin (![π / 2, -(π / 2)] i)) (∑ i : Fin 2, (1 : ℝ) * cos (![π / 2, -(π / 2)] i))
      = 0 := by
    have hz : (⟨0, 0⟩ : ℂ) = 0 := rfl
    simp [arctan2, Fin.sum_univ_two, hz]
  set w := a1Prime A1 1 with hw
  set M : Matrix (Fin 2) (Fin 2) ℝ := gram (fun _ => (1 : ℝ) ^ 2 * w) (withOnes (n := 2) (p := 1) fun _ _ => 0) + ridge 2
    with hM
  have hM00 : M 0 0 = 2 * w + 1 / 10 ^ 8 := by
    simp [hM, gram, ridge, withOnes]
    try ring
  have hM01 : M 0 1 = 0 := by
    simp [hM, gram, ridge, withOnes]
  have hM10 : M 1 0 = 0 := by
    simp [hM, gram, ridge, withOnes]
  have hM11 : M 1 1 = 1 / 10 ^ 8 := by
    simp [hM, gram, ridge, withOnes]
  have hdet : IsUnit M.det := by
    rw [isUnit_iff_ne_zero, Matrix.det_fin_two, hM00, hM01, hM10, hM11]
    have : 0 < 2 * w + 1 / 10 ^ 8 := by linarith
    simp only [mul_zero, sub_zero]
    positivity
  set y : Fin 2 → ℝ := fun i => (cos (![π / 2, -(π / 2)] i - 0) - a) / (w * 1) with hy
  have hy' : ∀ i, y i = -a / w := by
    intro i
    fin_cases i <;> simp [hy]
  set rhs : Fin 2 → ℝ := fun j => ∑ i, withOnes (n := 2) (p := 1) (fun _ _ => 0) i j * ((1 : ℝ) ^ 2 * w * y i) with hrhs
  have hrhs0 : rhs 0 = -2 * a := by
    simp only [hrhs, Fin.sum_univ_two, withOnes, Fin.cons_zero, hy']
    have : w ≠ 0 := by linarith
    field_simp
    ring
  set u := solve 2 M rhs with hu
  have hu0 : u 0 < 0 := by
    have h1 := congrFun (hs 2 M rhs hdet) 0
    rw [← hu] at h1
    simp only [Matrix.mulVec, dotProduct, Fin.sum_univ_two, hM00, hM01, zero_mul, add_zero, hrhs0] at h1
    by_contra hc
    push Not at hc
    have : 0 ≤ (2 * w + 1 / 10 ^ 8) * u 0 := mul_nonneg (by linarith) hc
    linarith [hA.1]
  have hnc : ¬ ∃ i : Fin 2, isclose (a1Prime A1 ((fun _ => (1 : ℝ)) i)) 0 rtolDefault atolDefault := by
    rintro ⟨i, hi⟩
    simp only [← hw] at hi
    rw [isclose_zero _ _ _ (by linarith)] at hi
    unfold atolDefault at hi
    norm_num at hi
    linarith
  refine ⟨⟨⟨0, 0 + u 0, fun j => 0 + u j.succ⟩, 0, fun _ => 1,
    -(∑ i : Fin 2, log (i0 1)) + ∑ i : Fin 2, 1 * cos (![π / 2, -(π / 2)] i - 0)⟩, ?_, fun i => rfl, fun i => ?_⟩
  · unfold clFit clLoop
    simp only [kappaStep, hk, hmu, gammaUpdate, if_neg hnc, Except.map, Except.bind]
    rw [if_neg (by simp)]
    rfl
  · simp only [zero_mul, Finset.sum_const_zero, add_zero, zero_add]
    exact (Real.exp_lt_exp.2 hu0).trans_eq Real.exp_zero

end Verif.Props
