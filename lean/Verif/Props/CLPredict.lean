import Verif.Props.CLReg
import Mathlib.Analysis.SpecialFunctions.Trigonometric.Bounds

/-! # C105: predictions of circular-linear regression -/

set_option autoImplicit false

namespace Verif.Props

open Real Verif Verif.Spec

variable {n p : ℕ} {theta : Fin n → ℝ} {X : Fin n → Fin p → ℝ} {A1 i0 : ℝ → ℝ}
  {solve : ∀ q : ℕ, Matrix (Fin q) (Fin q) ℝ → (Fin q → ℝ) → (Fin q → ℝ)}

/-- Specification: the von Mises log-likelihood (up to `n log 2π`) of the responses given one mean direction and
one concentration per observation. -/
noncomputable def vmFitLogLik (i0 : ℝ → ℝ) (theta pred kappa : Fin n → ℝ) : ℝ :=
  ∑ i, (kappa i * cos (theta i - pred i) - log (i0 (kappa i)))

/-- Specification: the residuals balance: their weighted sines cancel and their weighted cosines do not add up to
something negative. -/
def Balanced (theta pred w : Fin n → ℝ) : Prop :=
  ∑ i, w i * sin (theta i - pred i) = 0 ∧ 0 ≤ ∑ i, w i * cos (theta i - pred i)

private lemma balanced_arctan2 (k r : Fin n → ℝ) (c : ℝ) (hc : 0 < c) :
    ∑ i, k i * sin (r i - arctan2 ((∑ i, k i * sin (r i)) / c) ((∑ i, k i * cos (r i)) / c)) = 0 ∧
      0 ≤ ∑ i, k i * cos (r i - arctan2 ((∑ i, k i * sin (r i)) / c) ((∑ i, k i * cos (r i)) / c)) := by
  obtain ⟨S, hS⟩ : ∃ S, ∑ i, k i * sin (r i) = S := ⟨_, rfl⟩
  obtain ⟨C, hC⟩ : ∃ C, ∑ i, k i * cos (r i) = C := ⟨_, rfl⟩
  rw [hS, hC]
  obtain ⟨z, hz⟩ : ∃ z : ℂ, z = ⟨C / c, S / c⟩ := ⟨_, rfl⟩
  have h1 : ‖z‖ * cos (arctan2 (S / c) (C / c)) = C / c := by
    have := Complex.norm_mul_cos_arg z
    rw [hz] at this ⊢
    exact this
  have h2 : ‖z‖ * sin (arctan2 (S / c) (C / c)) = S / c := by
    have := Complex.norm_mul_sin_arg z
    rw [hz] at this ⊢
    exact this
  generalize arctan2 (S / c) (C / c) = a at h1 h2
  have hC' : C = c * (‖z‖ * cos a) := by rw [h1]; field_simp
  have hS' : S = c * (‖z‖ * sin a) := by rw [h2]; field_simp
  have e1 : ∑ i, k i * sin (r i - a) = S * cos a - C * sin a := by
    rw [← hS, ← hC, Finset.sum_mul, Finset.sum_mul, ← Finset.sum_sub_distrib]
    exact Finset.sum_congr rfl fun i _ => by rw [sin_sub]; ring
  have e2 : ∑ i, k i * cos (r i - a) = C * cos a + S * sin a := by
    rw [← hS, ← hC, Finset.sum_mul, Finset.sum_mul, ← Finset.sum_add_distrib]
    exact Finset.sum_congr rfl fun i _ => by rw [cos_sub]; ring
  rw [e1, e2, hC', hS']
  refine ⟨by ring, ?_⟩
  have : c * (‖z‖ * cos a) * cos a + c * (‖z‖ * sin a) * sin a = c * ‖z‖ := by
    linear_combination c * ‖z‖ * cos_sq_add_sin_sq a
  rw [this]
  positivity

/-- Specification: the fit stopped by its tolerance test. -/
def Converged {P K : Type} (step : P → Except PyErr (Option (CLStep P K))) (tol : ℝ) (maxIter : ℕ) (start : P) : Prop :=
  ∀ q s, IsRun step start q s (maxIter - 1) → ∃ j < maxIter, Settled tol s j

private lemma converged_step {P K : Type} {step : P → Except PyErr (Option (CLStep P K))} {tol : ℝ} {maxIter : ℕ}
    {start : P} {res : CLResult P K} (h : clFit step tol maxIter start = .ok (some res))
    (hc : Converged step tol maxIter start) :
    ∃ s, step res.params = .ok (some s) ∧ s.mu = res.mu ∧ s.kappa = res.kappa ∧ s.ll = res.ll := by
  obtain ⟨q, s, last, hr, h2, h3, h4⟩ := C56_loop _ _ _ _ _ h
  rcases h4 with ⟨-, rfl⟩ | ⟨hns, hlast, -⟩
  · exact ⟨s last, (hr.2 last le_rfl).1, rfl, rfl, rfl⟩
  · exfalso
    have e : maxIter - 1 = last := by omega
    rw [Converged, e] at hc
    obtain ⟨j, hj, hs⟩ := hc q s hr
    rcases Nat.lt_or_eq_of_le (show j ≤ last by omega) with hlt | rfl
    · exact h3 j hlt hs
    · exact hns hs

private lemma predict_eq {m : ℕ} (mu : ℝ) (beta : Fin p → ℝ) (Y : Fin m → Fin p → ℝ) (i : Fin m) :
    clPredict mu beta Y i = mu + 2 * arctan (∑ j, Y i j * beta j) := rfl

/-- Model "mean", stopped by its tolerance: the reported log-likelihood is the one of the responses around the
predictions for the data the model was fitted to, and the residuals of these predictions balance. -/
theorem C105_mean {tol : ℝ} {maxIter : ℕ} {start : CLParams p} {res : CLResult (CLParams p) ℝ} (hn : 0 < n)
    (h : clFit (meanStep theta X A1 i0 solve) tol maxIter start = .ok (some res))
    (hc : Converged (meanStep theta X A1 i0 solve) tol maxIter start) :
    res.ll = vmFitLogLik i0 theta (clPredict res.mu res.params.beta X) (fun _ => res.kappa) ∧
    Balanced theta (clPredict res.mu res.params.beta X) 1 := by
  obtain ⟨s, hs, hmu, hk, hll⟩ := converged_step h hc
  have hm := C56_mean hn hs
  refine ⟨by rw [← hll, ← hk, ← hmu]; exact hm.1, ?_⟩
  unfold meanStep at hs
  simp only [Except.ok.injEq, Option.map_eq_some_iff] at hs
  obtain ⟨k, -, rfl⟩ := hs
  simp only at hmu
  have := balanced_arctan2 (fun _ => (1 : ℝ)) (rawDev theta X res.params.beta) n (by exact_mod_cast hn)
  simp only [one_mul] at this
  rw [hmu] at this
  unfold Balanced
  simp only [Pi.one_apply, one_mul]
  have e : ∀ i, theta i - clPredict res.mu res.params.beta X i = rawDev theta X res.params.beta i - res.mu :=
    fun i => by unfold clPredict rawDev; ring
  simp only [e]
  exact this

/-- Model "mixed", stopped by its tolerance, likewise, with the residuals weighted by the concentrations. -/
theorem C105_mixed {tol : ℝ} {maxIter : ℕ} {start : CLParams p} {res : CLResult (CLParams p) (Fin n → ℝ)}
    (h : clFit (mixedStep theta X A1 i0 solve) tol maxIter start = .ok (some res))
    (hc : Converged (mixedStep theta X A1 i0 solve) tol maxIter start) :
    res.ll = vmFitLogLik i0 theta (clPredict res.mu res.params.beta X) res.kappa ∧
    Balanced theta (clPredict res.mu res.params.beta X) res.kappa := by
  obtain ⟨s, hs, hmu, hk, hll⟩ := converged_step h hc
  have hm := C56_mixed hs
  refine ⟨by rw [← hll, ← hk, ← hmu]; exact hm.2.1, ?_⟩
  rw [← hk, hm.1]
  unfold mixedStep at hs
  simp only at hs
  generalize gammaUpdate X A1 solve _ _ = g at hs
  cases g with
  | error e => simp [Except.map] at hs
  | ok u =>
    simp only [Except.map, Except.ok.injEq, Option.some.injEq] at hs
    subst hs
    simp only at hmu
    have := balanced_arctan2 (kappaOf X res.params.alpha res.params.gamma) (rawDev theta X res.params.beta) 1 one_pos
    simp only [div_one] at this
    rw [hmu] at this
    unfold Balanced
    have e : ∀ i, theta i - clPredict res.mu res.params.beta X i = rawDev theta X res.params.beta i - res.mu :=
      fun i => by unfold clPredict rawDev; ring
    simp only [e]
    exact this

/-- Model "kappa" has one mean direction: with the default start every prediction is the reported `mu`. -/
theorem C105_kappa {m : ℕ} {tol : ℝ} {maxIter : ℕ} {start : CLParams p} {res : CLResult (CLParams p) (Fin n → ℝ)}
    (hb : start.beta = 0) (h : clFit (kappaStep theta X A1 i0 solve) tol maxIter start = .ok (some res))
    (Y : Fin m → Fin p → ℝ) (i : Fin m) : clPredict res.mu res.params.beta Y i = res.mu := by
  rw [predict_eq, (C56_untouched tol maxIter start).2 res h, hb]
  simp

/-- A start value for `beta` is neither used nor changed by model "kappa", but `predict` uses it: the predictions then
differ from the fitted mean direction. -/
theorem C105_kappa_start {m : ℕ} {tol : ℝ} {maxIter : ℕ} {start : CLParams p} {res : CLResult (CLParams p) (Fin n → ℝ)}
    (h : clFit (kappaStep theta X A1 i0 solve) tol maxIter start = .ok (some res))
    (Y : Fin m → Fin p → ℝ) (i : Fin m) :
    clPredict res.mu res.params.beta Y i = res.mu ↔ ∑ j, Y i j * start.beta j = 0 := by
  rw [predict_eq, (C56_untouched tol maxIter start).2 res h]
  constructor
  · intro h
    have : arctan (∑ j, Y i j * start.beta j) = 0 := by linarith
    exact arctan_eq_zero_iff.1 this
  · intro h
    rw [h, arctan_zero]; ring

/-- Predictions never reach the direction opposite `mu`, and reach every other direction: for coefficients that are not
all zero, every angle strictly within `π` of `mu` is the prediction for some predictor values; a larger linear predictor
gives a larger prediction. -/
theorem C105_range (mu : ℝ) (beta : Fin p → ℝ) :
    (∀ (m : ℕ) (Y : Fin m → Fin p → ℝ) (i : Fin m), |clPredict mu beta Y i - mu| < π) ∧
    (∀ (m : ℕ) (Y : Fin m → Fin p → ℝ) (i k : Fin m),
      clPredict mu beta Y i < clPredict mu beta Y k ↔ ∑ j, Y i j * beta j < ∑ j, Y k j * beta j) ∧
    (beta ≠ 0 → ∀ t, |t - mu| < π → ∃ Y : Fin 1 → Fin p → ℝ, clPredict mu beta Y 0 = t) := by
  refine ⟨fun m Y i => ?_, fun m Y i k => ?_, fun hb t ht => ?_⟩
  · rw [predict_eq, abs_lt]
    have h1 := arctan_lt_pi_div_two (∑ j, Y i j * beta j)
    have h2 := neg_pi_div_two_lt_arctan (∑ j, Y i j * beta j)
    constructor <;> linarith
  · rw [predict_eq, predict_eq, ← arctan_strictMono.lt_iff_lt (a := ∑ j, Y i j * beta j)]
    constructor <;> intro h <;> linarith
  · obtain ⟨j, hj⟩ : ∃ j, beta j ≠ 0 := by
      by_contra hh
      push Not at hh
      exact hb (funext hh)
    rw [abs_lt] at ht
    refine ⟨fun _ l => if l = j then tan ((t - mu) / 2) / beta j else 0, ?_⟩
    rw [predict_eq]
    have : ∑ l, (if l = j then tan ((t - mu) / 2) / beta j else 0) * beta l = tan ((t - mu) / 2) := by
      rw [Finset.sum_eq_single j (fun l _ hl => by rw [if_neg hl, zero_mul]) (fun h => absurd (Finset.mem_univ j) h),
        if_pos rfl]
      field_simp
    rw [this, arctan_tan (by linarith [ht.1]) (by linarith [ht.2])]
    ring

/-- Predictions are not reduced to one turn: they can be negative and they can exceed `π`. -/
theorem C105_not_reduced : ∃ (mu : ℝ) (beta : Fin 1 → ℝ) (Y : Fin 2 → Fin 1 → ℝ), -π < mu ∧ mu ≤ π ∧
    clPredict mu beta Y 0 < 0 ∧ π < clPredict mu beta Y 1 := by
  refine ⟨π / 2 + π / 4, fun _ => 1, ![fun _ => -tan (π / 2 - π / 12), fun _ => 1], by linarith [pi_pos], by linarith [pi_pos], ?_, ?_⟩
  · rw [predict_eq]
    simp only [Matrix.cons_val_zero, Finset.univ_unique, Finset.sum_singleton, mul_one]
    rw [arctan_neg, arctan_tan (by linarith [pi_pos]) (by linarith [pi_pos])]
    linarith [pi_pos]
  · rw [predict_eq]
    have e : ∑ j : Fin 1, (![fun _ => -tan (π / 2 - π / 12), fun _ => 1] : Fin 2 → Fin 1 → ℝ) 1 j * 1 = 1 := by simp
    rw [e, arctan_one]
    linarith [pi_pos]

private lemma fixed_fit {P K : Type} {step : P → Except PyErr (Option (CLStep P K))} {tol : ℝ} {start : P} {s : CLStep P K}
    (ht : 0 < tol) (h : step start = .ok (some s)) (hn : s.next = start) :
    clFit step tol 2 start = .ok (some ⟨start, s.mu, s.kappa, s.ll⟩) ∧ Converged step tol 2 start := by
  constructor
  · simp [clFit, clLoop, h, hn, Except.bind, ht]
  · intro q t hr
    refine ⟨1, by norm_num, one_pos, ?_⟩
    have h0 := hr.2 0 (by norm_num)
    rw [hr.1, h] at h0
    have e0 : s = t 0 := by simpa using h0.1
    have h1 := hr.2 1 (by norm_num)
    rw [show (1 : ℕ) = 0 + 1 from rfl, h0.2, ← e0, hn, h] at h1
    have e1 : s = t 1 := by simpa using h1.1
    simp only [Nat.sub_self]
    rw [← e0, ← e1]
    simpa using ht

/-- The hypotheses of `C105_mean` can be met, by a fit with two observations and a useless predictor. -/
example (A1 i0 : ℝ → ℝ) (tol : ℝ) (ht : 0 < tol) : ∃ res,
    clFit (meanStep (n := 2) (p := 1) ![π / 3, -(π / 3)] (fun _ _ => 0) A1 i0 (fun _ A b => A⁻¹.mulVec b)) tol 2 ⟨0, 0, 0⟩ = .ok (some res) ∧
    Converged (meanStep (n := 2) (p := 1) ![π / 3, -(π / 3)] (fun _ _ => 0) A1 i0 (fun _ A b => A⁻¹.mulVec b)) tol 2 ⟨0, 0, 0⟩ := by
  have hs : ∃ s, meanStep (n := 2) (p := 1) ![π / 3, -(π / 3)] (fun _ _ => 0) A1 i0 (fun _ A b => A⁻¹.mulVec b) ⟨0, 0, 0⟩ = .ok (some s) ∧
      s.next = ⟨0, 0, 0⟩ := by
    unfold meanStep
    simp only
    have hR : ∃ k, a1inv (sqrt (((∑ i, sin (rawDev (n := 2) (p := 1) ![π / 3, -(π / 3)] (fun _ _ => 0) 0 i)) / (2 : ℕ)) ^ 2
        + ((∑ i, cos (rawDev (n := 2) (p := 1) ![π / 3, -(π / 3)] (fun _ _ => 0) 0 i)) / (2 : ℕ)) ^ 2)) = some k := by
      have : sqrt (((∑ i, sin (rawDev (n := 2) (p := 1) ![π / 3, -(π / 3)] (fun _ _ => 0) 0 i)) / (2 : ℕ)) ^ 2
        + ((∑ i, cos (rawDev (n := 2) (p := 1) ![π / 3, -(π / 3)] (fun _ _ => 0) 0 i)) / (2 : ℕ)) ^ 2) = 1 / 2 := by
        rw [Real.sqrt_eq_iff_mul_self_eq_of_pos (by norm_num)]
        simp [rawDev, linPred, Fin.sum_univ_two]
        norm_num
      rw [this]
      exact ⟨_, if_pos (by norm_num)⟩
    obtain ⟨k, hk⟩ := hR
    rw [hk, Option.map_some]
    refine ⟨_, rfl, ?_⟩
    have hb : (fun j : Fin 1 => (∑ i : Fin 2, gMat (n := 2) (p := 1) (fun _ _ => 0) 0 i j * (k * sin (rawDev (n := 2) (p := 1)
        ![π / 3, -(π / 3)] (fun _ _ => 0) 0 i - arctan2 ((∑ i, sin (rawDev (n := 2) (p := 1) ![π / 3, -(π / 3)] (fun _ _ => 0) 0 i)) / (2 : ℕ))
          ((∑ i, cos (rawDev (n := 2) (p := 1) ![π / 3, -(π / 3)] (fun _ _ => 0) 0 i)) / (2 : ℕ)))))
        + k * A1 k * ((gram (n := 2) (fun _ => 1) (gMat (n := 2) (p := 1) (fun _ _ => 0) 0)).mulVec 0) j) = 0 := by
      funext j
      simp [gMat]
    simp only
    rw [hb, Matrix.mulVec_zero]
  obtain ⟨s, h1, h2⟩ := hs
  have := fixed_fit ht h1 h2
  exact ⟨_, this⟩

end Verif.Props
