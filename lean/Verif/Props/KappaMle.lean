import Verif.Props.Kappa
import Verif.Lemmas.KappaBound
import Verif.Lemmas.Fisher

/-!
# C135: the concentration estimate and the maximum likelihood estimate
-/

set_option autoImplicit false

namespace Verif.Props

open Verif Verif.Spec Real Set

/-- The log-likelihood of a weighted sample under the von Mises distribution with mean direction `m` and
concentration `k`. -/
noncomputable def vmSampleLogLik (alpha w : List ℝ) (m k : ℝ) : ℝ :=
  (List.zipWith (fun a v => v * log (vonMises m k a)) alpha w).sum

/-- `(mu, k)` are maximum likelihood estimates of mean direction and concentration. -/
def IsVonMisesMle (alpha w : List ℝ) (mu k : ℝ) : Prop :=
  0 ≤ k ∧ ∀ m j : ℝ, 0 ≤ j → vmSampleLogLik alpha w m j ≤ vmSampleLogLik alpha w mu k

private lemma est_up {r : ℝ} (h0 : 0 < r) (h1 : r < 1) :
    0 < circKappa r none ∧ besselI 1 (circKappa r none) / besselI 0 (circKappa r none) ≤ r := by
  have hp := (C28_kappa_nonneg r h0.le h1).2 h0
  refine ⟨hp, ?_⟩
  unfold circKappa kappaRaw
  simp only
  split_ifs with c1 c2 c3
  · exact kappa_low_up h0 c1.le
  · exact kappa_mid_up (not_lt.1 c1) c2.le
  · exact kappa_high_up (not_lt.1 c2) h1
  · exact absurd (high_pos (not_lt.1 c2) h1) (by rw [not_not.1 c3]; exact lt_irrefl _)

private lemma est_down {r : ℝ} (h0 : 0 < r) (h1 : r < 1) :
    r ≤ besselI 1 (1.011 * circKappa r none) / besselI 0 (1.011 * circKappa r none) := by
  have hp := (C28_kappa_nonneg r h0.le h1).2 h0
  have mono : ∀ {c k : ℝ}, 0 < c → c ≤ 1.011 → 0 < k →
      besselI 1 (c * k) / besselI 0 (c * k) ≤ besselI 1 (1.011 * k) / besselI 0 (1.011 * k) := by
    intro c k hc hc' hk
    exact A1_strictMonoOn.monotoneOn (mem_Ioi.2 (by positivity)) (mem_Ioi.2 (by positivity))
      (mul_le_mul_of_nonneg_right hc' hk.le)
  revert hp
  unfold circKappa kappaRaw
  simp only
  split_ifs with c1 c2 c3
  · intro hp
    refine (kappa_low_down h0 c1.le).trans (mono (by positivity) ?_ hp)
    have : r ^ 6 ≤ 0.53 ^ 6 := pow_le_pow_left₀ h0.le c1.le 6
    norm_num at this ⊢
    linarith
  · intro hp
    rcases le_total r 0.8 with h | h
    · exact (kappa_mid_down_a (not_lt.1 c1) h).trans (mono (by norm_num) (by norm_num) hp)
    · refine (kappa_mid_down_b h c2.le).trans (mono (by positivity) ?_ hp)
      have e1 : (r - 0.8) ^ 2 ≤ 0.05 ^ 2 := by
        apply pow_le_pow_left₀ (sub_nonneg.2 h)
        norm_num at c2 ⊢; linarith
      norm_num at e1 ⊢
      linarith
  · intro _; exact kappa_high_down (not_lt.1 c2) h1
  · exact absurd (high_pos (not_lt.1 c2) h1) (by rw [not_not.1 c3]; exact lt_irrefl _)

/-- Below the estimate the derivative of the profile likelihood is positive, beyond 1.011 times it negative. -/
private lemma below {r x : ℝ} (h0 : 0 ≤ r) (h1 : r < 1) (hx : 0 < x) (hlt : x < circKappa r none) :
    besselI 1 x / besselI 0 x < r := by
  rcases h0.eq_or_lt with h | h
  · rw [← h] at hlt
    norm_num [circKappa, kappaRaw] at hlt
    linarith
  · obtain ⟨hp, he⟩ := est_up h h1
    exact lt_of_lt_of_le (A1_strictMonoOn (mem_Ioi.2 hx) (mem_Ioi.2 hp) hlt) he

private lemma beyond {r x : ℝ} (h0 : 0 ≤ r) (h1 : r < 1) (hx : 0 < x) (hlt : 1.011 * circKappa r none < x) :
    r < besselI 1 x / besselI 0 x := by
  rcases h0.eq_or_lt with h | h
  · rw [← h]; exact A1_pos hx
  · have hp := (est_up h h1).1
    exact lt_of_le_of_lt (est_down h h1)
      (A1_strictMonoOn (mem_Ioi.2 (by positivity)) (mem_Ioi.2 hx) hlt)

private lemma prof_deriv (r x : ℝ) :
    HasDerivAt (fun k => k * r - log (besselI 0 k)) (r - besselI 1 x / besselI 0 x) x := by
  refine (((hasDerivAt_id x).mul_const r).sub (hasDerivAt_log_besselI x)).congr_deriv ?_
  simp

private lemma prof_cont (r : ℝ) : Continuous fun k => k * r - log (besselI 0 k) :=
  continuous_iff_continuousAt.2 fun x => (prof_deriv r x).continuousAt

private lemma prof_up {r : ℝ} (h0 : 0 ≤ r) (h1 : r < 1) :
    StrictMonoOn (fun k => k * r - log (besselI 0 k)) (Icc 0 (circKappa r none)) := by
  apply strictMonoOn_of_deriv_pos (convex_Icc _ _) (prof_cont r).continuousOn
  intro x hx
  rw [interior_Icc] at hx
  rw [(prof_deriv r x).deriv]
  linarith [below h0 h1 hx.1 hx.2]

private lemma prof_down {r : ℝ} (h0 : 0 ≤ r) (h1 : r < 1) :
    StrictAntiOn (fun k => k * r - log (besselI 0 k)) (Ici (1.011 * circKappa r none)) := by
  apply strictAntiOn_of_deriv_neg (convex_Ici _) (prof_cont r).continuousOn
  intro x hx
  rw [interior_Ici] at hx
  rw [(prof_deriv r x).deriv]
  have hn := (C28_kappa_nonneg r h0 h1).1
  have hx : 1.011 * circKappa r none < x := hx
  linarith [beyond h0 h1 (lt_of_le_of_lt (by positivity) hx) hx]

private lemma prof_max {r k : ℝ} (h0 : 0 ≤ r) (h1 : r < 1) (hk : 0 ≤ k)
    (hmax : ∀ j, 0 ≤ j → j * r - log (besselI 0 j) ≤ k * r - log (besselI 0 k)) :
    circKappa r none ≤ k ∧ k ≤ 1.011 * circKappa r none := by
  have hn := (C28_kappa_nonneg r h0 h1).1
  constructor
  · by_contra hc
    push Not at hc
    have := prof_up h0 h1 ⟨hk, hc.le⟩ ⟨hn, le_rfl⟩ hc
    have h2 := hmax _ hn
    simp only at this
    linarith
  · by_contra hc
    push Not at hc
    have := prof_down h0 h1 (mem_Ici.2 le_rfl) (mem_Ici.2 hc.le) hc
    have h2 := hmax (1.011 * circKappa r none) (by positivity)
    simp only at this
    linarith

private lemma prof_exists {r : ℝ} (h0 : 0 ≤ r) (h1 : r < 1) :
    ∃ k, 0 ≤ k ∧ ∀ j, 0 ≤ j → j * r - log (besselI 0 j) ≤ k * r - log (besselI 0 k) := by
  have hn := (C28_kappa_nonneg r h0 h1).1
  have hn' : 0 ≤ 1.011 * circKappa r none := by positivity
  obtain ⟨k, hk, hmax⟩ := isCompact_Icc.exists_isMaxOn (nonempty_Icc.2 hn') (prof_cont r).continuousOn
  refine ⟨k, hk.1, fun j hj => ?_⟩
  rcases le_total j (1.011 * circKappa r none) with h | h
  · exact hmax ⟨hj, h⟩
  · have h2 := hmax (right_mem_Icc.2 hn')
    have h3 := (prof_down h0 h1).antitoneOn (mem_Ici.2 le_rfl) (mem_Ici.2 h) h
    exact h3.trans h2

private lemma loglik_eq (alpha w : List ℝ) (hl : alpha.length = w.length) (m k : ℝ) :
    vmSampleLogLik alpha w m k = k * (Complex.exp ((-m : ℝ) * Complex.I) * expSum alpha w 1).re
      - w.sum * (log (besselI 0 k) + log (2 * π)) := by
  unfold vmSampleLogLik expSum
  induction alpha generalizing w with
  | nil =>
    cases w with
    | nil => simp
    | cons => simp at hl
  | cons a l ih =>
    cases w with
    | nil => simp at hl
    | cons v w =>
      have hl' : l.length = w.length := by simpa using hl
      simp only [List.zipWith_cons_cons, List.sum_cons]
      rw [ih w hl', log_vonMises]
      have e : (Complex.exp ((-m : ℝ) * Complex.I) * ((v : ℂ) * Complex.exp (((1 : ℤ) * a : ℝ) * Complex.I))).re
          = v * cos (a - m) := by
        rw [mul_left_comm, ← Complex.exp_add, Complex.re_ofReal_mul, ← add_mul, ← Complex.ofReal_add,
          Complex.exp_ofReal_mul_I_re]
        congr 2; push_cast; ring
      rw [mul_add (Complex.exp ((-m : ℝ) * Complex.I)), Complex.add_re, e]
      ring

private lemma circR_some {alpha w : List ℝ} {r : ℝ} (hW : 0 < w.sum) (hr : circR alpha w = some r) :
    ‖expSum alpha w 1‖ = w.sum * r ∧ 0 ≤ r := by
  rw [circR_eq, if_neg hW.ne', Option.some.injEq] at hr
  have : r = ‖expSum alpha w 1‖ / w.sum := by
    rw [← hr, moment, norm_div, Complex.norm_real, norm_eq_abs, abs_of_pos hW]
  rw [this]
  exact ⟨by field_simp, by positivity⟩

private lemma dir_le (m : ℝ) (z : ℂ) : (Complex.exp ((-m : ℝ) * Complex.I) * z).re ≤ ‖z‖ := by
  refine (Complex.re_le_norm _).trans ?_
  rw [norm_mul, Complex.norm_exp_ofReal_mul_I, one_mul]

private lemma dir_eq (z : ℂ) : (Complex.exp ((-z.arg : ℝ) * Complex.I) * z).re = ‖z‖ := by
  conv_lhs => rw [← Complex.norm_mul_exp_arg_mul_I z]
  rw [mul_left_comm, ← Complex.exp_add]
  simp

/-- **C135.** For every (weighted) sample with positive total weight and resultant length below 1, the estimate of the
concentration never exceeds the maximum likelihood estimate, with or without the small-sample correction, and
without the correction it is at most 1.1 per cent below it. -/
theorem C135_kappa_mle (alpha w : List ℝ) (hl : alpha.length = w.length) (hW : 0 < w.sum) (r : ℝ)
    (hr : circR alpha w = some r) (h1 : r < 1) (mu k : ℝ) (hmle : IsVonMisesMle alpha w mu k) :
    circKappa r none ≤ k ∧ k ≤ 1.011 * circKappa r none ∧ ∀ n : ℕ, circKappa r (some n) ≤ k := by
  obtain ⟨hz, h0⟩ := circR_some hW hr
  obtain ⟨hk, hmax⟩ := hmle
  have hprof : ∀ j, 0 ≤ j → j * r - log (besselI 0 j) ≤ k * r - log (besselI 0 k) := by
    intro j hj
    have h2 := hmax (expSum alpha w 1).arg j hj
    rw [loglik_eq _ _ hl, loglik_eq _ _ hl, dir_eq, hz] at h2
    have h3 := mul_le_mul_of_nonneg_left (dir_le mu (expSum alpha w 1)) hk
    rw [hz] at h3
    have h4 : w.sum * (j * r - log (besselI 0 j)) ≤ w.sum * (k * r - log (besselI 0 k)) := by linarith
    exact le_of_mul_le_mul_left h4 hW
  obtain ⟨a, b⟩ := prof_max h0 h1 hk hprof
  refine ⟨a, b, fun n => le_trans ?_ a⟩
  have hn := (C28_kappa_nonneg r h0 h1).1
  unfold circKappa at hn ⊢
  simp only at hn ⊢
  split_ifs with c1 c2 c3
  · exact hn
  · refine max_le ?_ hn
    have : 0 ≤ 2 * 1 / ((n : ℝ) * kappaRaw r) := by positivity
    linarith
  · rcases Nat.eq_zero_or_pos n with rfl | hpos
    · simp [hn]
    · have hn1 : (1 : ℝ) ≤ n := by exact_mod_cast hpos
      rw [div_le_iff₀ (by positivity)]
      have e : ((n : ℝ) - 1) ^ 3 ≤ (n : ℝ) ^ 3 + n := by nlinarith
      nlinarith
  · exact le_rfl

/-- Under the same conditions maximum likelihood estimates exist, so that the comparison is about something. -/
theorem C135_mle_exists (alpha w : List ℝ) (hl : alpha.length = w.length) (hW : 0 < w.sum) (r : ℝ)
    (hr : circR alpha w = some r) (h1 : r < 1) : ∃ mu k, IsVonMisesMle alpha w mu k := by
  obtain ⟨hz, h0⟩ := circR_some hW hr
  obtain ⟨k, hk, hmax⟩ := prof_exists h0 h1
  refine ⟨(expSum alpha w 1).arg, k, hk, fun m j hj => ?_⟩
  rw [loglik_eq _ _ hl, loglik_eq _ _ hl, dir_eq, hz]
  have h3 := mul_le_mul_of_nonneg_left (dir_le m (expSum alpha w 1)) hj
  rw [hz] at h3
  have h4 := mul_le_mul_of_nonneg_left (hmax j hj) hW.le
  linarith

/-- A sample that meets the hypotheses: two observations at right angles. -/
example : circR [0, π / 2] [1, 1] = some (sqrt 2 / 2) ∧ sqrt 2 / 2 < 1 ∧ (0 : ℝ) < ([1, 1] : List ℝ).sum := by
  have h2 : sqrt 2 < 2 := by
    rw [Real.sqrt_lt' (by norm_num)]; norm_num
  refine ⟨?_, by linarith, by norm_num⟩
  have e : ((([1, 1] : List ℝ)).sum) = 2 := by norm_num
  have hs : sqrt ((1 / 2 : ℝ) ^ 2 + (1 / 2) ^ 2) = sqrt 2 / 2 := by
    rw [show ((1 / 2 : ℝ) ^ 2 + (1 / 2) ^ 2) = (sqrt 2 / 2) ^ 2 by
      rw [div_pow (sqrt 2), sq_sqrt (by norm_num)]; norm_num, sqrt_sq (by positivity)]
  simp only [circR, computeCS, e, pydiv, List.zipWith_cons_cons, List.zipWith_nil_right, List.sum_cons,
    List.sum_nil, Int.cast_one, one_mul, sub_zero, cos_zero, sin_zero, cos_pi_div_two, sin_pi_div_two]
  norm_num [circRofCS]
  norm_num at hs
  exact hs

end Verif.Props
