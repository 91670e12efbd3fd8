import Verif.Props.DistVonMises
import Verif.Lemmas.BesselDeriv

/-! # The fit and the sampler of the von Mises distribution: properties C83, C101 -/

set_option autoImplicit false

namespace Verif

open Real Verif.Spec MeasureTheory

/-! ## Fit -/

/-- **C83.** Every estimate of `vonmises.fit` is accepted by the distribution's argument check. -/
theorem C83_vonmises
    (minimize : (ℝ → ℝ → Option ℝ) → (ℝ → ℝ → ℝ × ℝ) → ℝ × ℝ → MinResult 2) (rnd : ℝ → ℤ)
    (numCdf : ℝ → ℝ → ℝ → ℝ)
    (data : List ℝ) (weights : Option (List ℝ)) (method : String) (s : ℝ × ℝ)
    (h : vmFit minimize rnd data weights method = .ok s) : (vonmises numCdf).argcheck s := by
  unfold vmFit at h
  simp only at h
  rcases hw : fitWeights (data.map wrap2pi).length weights with e | w
  · rw [hw] at h
    split_ifs at h <;> cases h
  · rw [hw] at h
    simp only [bind, Except.bind] at h
    split_ifs at h <;> cases h <;>
      exact ⟨wrap2pi_mem _, lt_of_lt_of_le (by norm_num) (clip_mem (by norm_num)).1⟩

/-- **C101.** The objective of `vonmises.fit` is the weighted negative log-likelihood of the
distribution's own density. -/
theorem C101_vonmises_objective (numCdf : ℝ → ℝ → ℝ → ℝ) {x w : List ℝ} {mu kappa : ℝ}
    (hl : x.length = w.length) (hk : 0 < kappa) :
    vmNll x w mu kappa = some (-(List.zipWith (fun xi wi =>
      wi * log ((vonmises numCdf).pdf xi (mu, kappa))) x w).sum) := by
  have hI := besselI_zero_pos kappa
  unfold vmNll
  rw [if_neg (not_not.mpr hk)]
  congr 1
  have e : (List.zipWith (fun xi wi => wi * log ((vonmises numCdf).pdf xi (mu, kappa))) x w).sum
      = (List.zipWith (fun xi wi => wi * (kappa * cos (xi - mu)
        - (log (2 * π) + log (besselI 0 kappa)))) x w).sum :=
    zipWith_sum_congr fun xi _ wi _ => by
      show wi * log (vmPdf xi mu kappa) = _
      unfold vmPdf
      rw [log_div (exp_pos _).ne' (by positivity), log_exp, log_mul two_pi_pos.ne' hI.ne']
  rw [e, zipWith_sum_sub hl, show (List.zipWith (fun xi wi => wi * (kappa * cos (xi - mu))) x w).sum
    = kappa * (List.zipWith (fun xi wi => wi * cos (xi - mu)) x w).sum by
      rw [zipWith_sum_mul]; exact zipWith_sum_congr fun xi _ wi _ => by ring]
  ring

/-- **C101.** The derivative with respect to `kappa` handed to the optimiser by `vonmises.fit` is the
derivative of the objective. -/
theorem C101_vonmises_kappa {x w : List ℝ} {mu kappa : ℝ} (hk : 0 < kappa) :
    ∃ f : ℝ → ℝ, (∀ k, 0 < k → vmNll x w mu k = some (f k)) ∧
      HasDerivAt f (vmGrad x w mu kappa).2 kappa := by
  refine ⟨fun k => -k * (List.zipWith (fun xi wi => wi * cos (xi - mu)) x w).sum
    + w.sum * (log (2 * π) + log (besselI 0 k)), fun k h => ?_, ?_⟩
  · unfold vmNll; rw [if_neg (not_not.mpr h)]
  · have h1 := ((hasDerivAt_besselI_zero kappa).log (besselI_zero_pos kappa).ne').const_add
      (log (2 * π)) |>.const_mul w.sum
    have h2 := ((hasDerivAt_id kappa).neg).mul_const
      (List.zipWith (fun xi wi => wi * cos (xi - mu)) x w).sum
    refine (h2.add h1).congr_deriv ?_
    unfold vmGrad
    simp

/-- **C101, negative part.** The derivative with respect to `mu` handed to the optimiser by
`vonmises.fit` is the *negative* of the derivative of the objective, for all data, weights and
parameters; it is therefore wrong wherever that derivative is not zero. -/
theorem C101_vonmises_mu_sign {x w : List ℝ} {mu kappa : ℝ} (hk : 0 < kappa) :
    ∃ f : ℝ → ℝ, (∀ m, vmNll x w m kappa = some (f m)) ∧
      HasDerivAt f (-(vmGrad x w mu kappa).1) mu ∧
      ((vmGrad x w mu kappa).1 ≠ 0 → ¬ HasDerivAt f (vmGrad x w mu kappa).1 mu) := by
  have hf : ∀ m, vmNll x w m kappa
      = some (-kappa * (List.zipWith (fun xi wi => wi * cos (xi - m)) x w).sum
        + w.sum * (log (2 * π) + log (besselI 0 kappa))) := fun m => by
    unfold vmNll; rw [if_neg (not_not.mpr hk)]
  have hd : HasDerivAt (fun m => -kappa * (List.zipWith (fun xi wi => wi * cos (xi - m)) x w).sum
        + w.sum * (log (2 * π) + log (besselI 0 kappa))) (-(vmGrad x w mu kappa).1) mu := by
    have h1 := hasDerivAt_zipWith_sum (x := x) (w := w) (a := mu)
      (g := fun m xi wi => wi * cos (xi - m)) (g' := fun xi wi => wi * sin (xi - mu))
      (fun xi _ wi _ => by
        have h2 : HasDerivAt (fun m : ℝ => cos (xi - m)) (-sin (xi - mu) * -1) mu :=
          ((hasDerivAt_id mu).const_sub xi).cos
        refine (h2.const_mul wi).congr_deriv ?_
        ring)
    refine ((h1.const_mul (-kappa)).add_const _).congr_deriv ?_
    unfold vmGrad
    ring
  refine ⟨_, hf, hd, fun hne h => ?_⟩
  have := h.unique hd
  exact hne (by linarith)

/-- C101, negative part: the wrong derivative occurs, e.g. for one observation at `π/2` and `mu = 0`. -/
theorem C101_vonmises_witness : (vmGrad [π / 2] [1] 0 1).1 ≠ 0 := by
  simp [vmGrad]

/-- The starting direction of the fit minimises the objective in `mu`, for every `kappa`; a correct
method cannot improve on it. Stated for any direction in which the weighted resultant points. -/
theorem C101_vonmises_best_mu {x w : List ℝ} {mu kappa R : ℝ} (hk : 0 < kappa) (hR : 0 ≤ R)
    (hl : x.length = w.length)
    (hc : (List.zipWith (fun xi wi => wi * cos xi) x w).sum = R * cos mu)
    (hs : (List.zipWith (fun xi wi => wi * sin xi) x w).sum = R * sin mu) (m : ℝ) :
    ∃ a b, vmNll x w mu kappa = some a ∧ vmNll x w m kappa = some b ∧ a ≤ b := by
  have key : ∀ m : ℝ, (List.zipWith (fun xi wi => wi * cos (xi - m)) x w).sum = R * cos (mu - m) := by
    intro m
    have : ∀ (x w : List ℝ), x.length = w.length →
        (List.zipWith (fun xi wi => wi * cos (xi - m)) x w).sum
        = (List.zipWith (fun xi wi => wi * cos xi) x w).sum * cos m
          + (List.zipWith (fun xi wi => wi * sin xi) x w).sum * sin m := by
      intro x
      induction x with
      | nil => intro w _; simp
      | cons a x ih =>
        intro w hw
        cases w with
        | nil => simp at hw
        | cons b w =>
          simp only [List.zipWith_cons_cons, List.sum_cons]
          rw [ih w (by simpa using hw), cos_sub]
          ring
    rw [this x w hl, hc, hs, cos_sub]; ring
  refine ⟨_, _, by unfold vmNll; rw [if_neg (not_not.mpr hk)],
    by unfold vmNll; rw [if_neg (not_not.mpr hk)], ?_⟩
  rw [key, key, sub_self, cos_zero]
  have : R * cos (mu - m) ≤ R * 1 := mul_le_mul_of_nonneg_left (cos_le_one _) hR
  nlinarith

/-! ## Non-vacuity -/

example : ∃ f : ℝ → ℝ, (∀ m, vmNll [0, 1, 2] [1, 1, 2] m 3 = some (f m)) ∧
    HasDerivAt f (-(vmGrad [0, 1, 2] [1, 1, 2] 1 3).1) 1 := by
  obtain ⟨f, h1, h2, _⟩ := C101_vonmises_mu_sign (x := [0, 1, 2]) (w := [1, 1, 2]) (mu := 1)
    (kappa := 3) (by norm_num)
  exact ⟨f, h1, h2⟩

end Verif
