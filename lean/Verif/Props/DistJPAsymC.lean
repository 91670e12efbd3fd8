import Verif.Props.DistJPAsym
import Verif.Props.DistFlatB

/-! # Property C102: the sampler of the asymmetric extended Jones-Pewsey family -/

set_option autoImplicit false

namespace Verif

open Real MeasureTheory Verif.Spec

/-! ## The search for the envelope -/

/-- The density of the von Mises proposals. -/
noncomputable def envDensity (mu k x : ℝ) : ℝ := exp (k * cos (x - mu)) / (2 * π * besselI 0 k)

theorem envDensity_pos (mu k x : ℝ) : 0 < envDensity mu k x := by
  have := besselI_zero_pos k
  unfold envDensity; positivity

theorem logVonmisesPdf_eq {k : ℝ} (hk : 1 / 10 ^ 6 ≤ k) (theta mu : ℝ) : logVonmisesPdf theta mu k = log (envDensity mu k theta) := by
  have hI := besselI_zero_pos k
  unfold logVonmisesPdf envDensity
  rw [if_neg (by have : (1 : ℝ) / 10 ^ 8 ≤ 1 / 10 ^ 6 := by norm_num
                 linarith), log_div (exp_pos _).ne' (by positivity), log_exp, log_mul (exp_pos _).ne' hI.ne', log_exp, log_mul two_pi_pos.ne' hI.ne']
  ring

/-- The state of the search is a concentration with its value. -/
def EnvGood (ev : ℝ → ℝ) (st : ℝ × Option ℝ) : Prop := st.2 = some (ev st.1) ∧ 1 / 10 ^ 6 ≤ st.1 ∧ st.1 ≤ 10 ^ 4

theorem envStep_good (ev : ℝ → ℝ) {st : ℝ × Option ℝ} (h : EnvGood ev st ∨ st.2 = none) (c : ℝ) :
    EnvGood ev (envEvaluate ev st [c]) ∧ ev (envEvaluate ev st [c]).1 ≤ ev (clip c (1 / 10 ^ 6) (10 ^ 4)) ∧
      (EnvGood ev st → ev (envEvaluate ev st [c]).1 ≤ ev st.1) := by
  have hcl := clip_mem (v := c) (lo := 1 / 10 ^ 6) (hi := 10 ^ 4) (by norm_num)
  unfold envEvaluate
  simp only [List.foldl_cons, List.foldl_nil]
  rcases h with h | h
  · rw [h.1]
    by_cases hlt : ev (clip c (1 / 10 ^ 6) (10 ^ 4)) < ev st.1
    · rw [if_pos (by simpa [infLt] using hlt)]
      exact ⟨⟨rfl, hcl⟩, le_rfl, fun _ => hlt.le⟩
    · rw [if_neg (by simpa [infLt] using hlt)]
      exact ⟨h, not_lt.1 hlt, fun _ => le_rfl⟩
  · rw [h, if_pos (by simp [infLt])]
    exact ⟨⟨rfl, hcl⟩, le_rfl, fun hg => by rw [hg.1] at h; cases h⟩

theorem envEvaluate_cons (ev : ℝ → ℝ) (st : ℝ × Option ℝ) (c : ℝ) (cs : List ℝ) :
    envEvaluate ev st (c :: cs) = envEvaluate ev (envEvaluate ev st [c]) cs := by
  unfold envEvaluate; rfl

theorem envEvaluate_good (ev : ℝ → ℝ) : ∀ (cs : List ℝ) {st : ℝ × Option ℝ}, EnvGood ev st →
    EnvGood ev (envEvaluate ev st cs) ∧ ev (envEvaluate ev st cs).1 ≤ ev st.1 ∧
      ∀ c ∈ cs, ev (envEvaluate ev st cs).1 ≤ ev (clip c (1 / 10 ^ 6) (10 ^ 4))
  | [], st, h => ⟨h, le_rfl, fun c hc => by cases hc⟩
  | c :: cs, st, h => by
    obtain ⟨a, b, d⟩ := envStep_good ev (Or.inl h) c
    obtain ⟨a', b', d'⟩ := envEvaluate_good ev cs a
    rw [envEvaluate_cons]
    refine ⟨a', b'.trans (d h), fun c' hc' => ?_⟩
    rcases List.mem_cons.1 hc' with h1 | h1
    · rw [h1]; exact b'.trans b
    · exact d' c' h1

theorem envEvaluate_first (ev : ℝ → ℝ) {st : ℝ × Option ℝ} (h : st.2 = none) {cs : List ℝ} (hcs : cs ≠ []) :
    EnvGood ev (envEvaluate ev st cs) ∧ ∀ c ∈ cs, ev (envEvaluate ev st cs).1 ≤ ev (clip c (1 / 10 ^ 6) (10 ^ 4)) := by
  rcases cs with _ | ⟨c, cs⟩
  · exact absurd rfl hcs
  obtain ⟨a, b, -⟩ := envStep_good ev (Or.inr h) c
  obtain ⟨a', b', d'⟩ := envEvaluate_good ev cs a
  rw [envEvaluate_cons]
  refine ⟨a', fun c' hc' => ?_⟩
  rcases List.mem_cons.1 hc' with h1 | h1
  · rw [h1]; exact b'.trans b
  · exact d' c' h1

theorem one_mem_envPool (g : ℝ) : (1 : ℝ) ∈ envPool g := by
  unfold envPool
  rw [List.mem_insertionSort, List.mem_dedup, List.mem_map]
  exact ⟨1, by simp, by unfold clip; norm_num⟩

theorem envOptimize_eq {ev : ℝ → ℝ} {g : ℝ} {st0 st1 st2 st3 : ℝ × Option ℝ} (e0 : st0 = envEvaluate ev (max g (1 / 10 ^ 6), none) (envPool g))
    (e1 : st1 = envEvaluate ev st0 (envSpan st0.1)) (e2 : st2 = envEvaluate ev st1 (envSpan st1.1)) (e3 : st3 = envEvaluate ev st2 (envSpan st2.1)) :
    envOptimize ev g = (st3.1, max (exp (st3.2.getD 0 + log (1 + 2 / 100))) (101 / 100)) := by
  rw [e3, e2, e1, e0]
  rfl

/-- What the search returns: a concentration in `[1e-6, 1e4]` that is not worse than concentration 1, and the constant
belonging to it. -/
theorem envOptimize_spec_aux {ev : ℝ → ℝ} {g : ℝ} {st0 st1 st2 st3 : ℝ × Option ℝ} (e0 : st0 = envEvaluate ev (max g (1 / 10 ^ 6), none) (envPool g))
    (e1 : st1 = envEvaluate ev st0 (envSpan st0.1)) (e2 : st2 = envEvaluate ev st1 (envSpan st1.1)) (e3 : st3 = envEvaluate ev st2 (envSpan st2.1)) :
    (1 / 10 ^ 6 ≤ (envOptimize ev g).1 ∧ (envOptimize ev g).1 ≤ 10 ^ 4) ∧
    (envOptimize ev g).2 = max (exp (ev (envOptimize ev g).1 + log (1 + 2 / 100))) (101 / 100) ∧
    ev (envOptimize ev g).1 ≤ ev 1 := by
  rw [envOptimize_eq e0 e1 e2 e3]
  obtain ⟨a0, b0⟩ := envEvaluate_first ev (st := (max g (1 / 10 ^ 6), none)) rfl (List.ne_nil_of_mem (one_mem_envPool g))
  have h1 := b0 1 (one_mem_envPool g)
  have hone : clip (1 : ℝ) (1 / 10 ^ 6) (10 ^ 4) = 1 := by unfold clip; norm_num
  rw [hone, ← e0] at h1
  rw [← e0] at a0
  obtain ⟨a1, b1, -⟩ := envEvaluate_good ev (envSpan st0.1) a0
  rw [← e1] at a1 b1
  obtain ⟨a2, b2, -⟩ := envEvaluate_good ev (envSpan st1.1) a1
  rw [← e2] at a2 b2
  obtain ⟨a3, b3, -⟩ := envEvaluate_good ev (envSpan st2.1) a2
  rw [← e3] at a3 b3
  exact ⟨a3.2, by simp only [a3.1, Option.getD_some], ((b3.trans b2).trans b1).trans h1⟩

theorem envOptimize_spec (ev : ℝ → ℝ) (g : ℝ) :
    (1 / 10 ^ 6 ≤ (envOptimize ev g).1 ∧ (envOptimize ev g).1 ≤ 10 ^ 4) ∧
    (envOptimize ev g).2 = max (exp (ev (envOptimize ev g).1 + log (1 + 2 / 100))) (101 / 100) ∧
    ev (envOptimize ev g).1 ≤ ev 1 := envOptimize_spec_aux rfl rfl rfl rfl

/-- **C102.** Asymmetric Jones-Pewsey: the envelope found by the search (for every accepted parameter set) lies above the
target, with 2 per cent to spare, at each of the 2048 angles of its grid. -/
theorem C102_asym_grid {s : JPA} (ha : jpaArgcheck s) {j : ℕ} (hj : j < 2048) :
    ∃ t, distPdf jpaBase (pymod (s.xi + j * (2 * π / 2048)) (2 * π)) s = some t ∧
      (1 + 2 / 100) * t ≤ (jpaEnvelope s).2 * envDensity s.xi (jpaEnvelope s).1 (pymod (s.xi + j * (2 * π / 2048)) (2 * π)) := by
  have hsome : ∀ y, distPdf jpaBase y s = some (jpaPdf (wrap2pi y) s) := fun y => by
    unfold distPdf
    rw [if_neg (not_not.2 (show jpaBase.argcheck s from ha)), if_pos (wrap2pi_mem _)]
    rfl
  refine ⟨_, hsome _, ?_⟩
  have hgrid : (j : ℝ) * (2 * π / 2048) = jpaGrid 2048 j := by unfold jpaGrid; push_cast; ring
  rw [hgrid]
  obtain ⟨ev, hev⟩ : ∃ ev, ev = envLogMax 2048 ⟨0, by simp⟩ (fun j => pymod (s.xi + jpaGrid 2048 j) (2 * π))
    (fun j => log (max ((distPdf jpaBase (pymod (s.xi + jpaGrid 2048 j) (2 * π)) s).getD 0) floatTiny)) s.xi := ⟨_, rfl⟩
  obtain ⟨hr, hM, -⟩ := envOptimize_spec ev (max (jpEffectiveKappa s.kappa s.psi) (1 / 10 ^ 6))
  have henv : jpaEnvelope s = envOptimize ev (max (jpEffectiveKappa s.kappa s.psi) (1 / 10 ^ 6)) := by rw [hev]; rfl
  rw [← henv] at hr hM
  obtain ⟨k, hk⟩ : ∃ k, k = (jpaEnvelope s).1 := ⟨_, rfl⟩
  rw [← hk] at hr hM ⊢
  obtain ⟨y, hy⟩ : ∃ y, y = pymod (s.xi + jpaGrid 2048 j) (2 * π) := ⟨_, rfl⟩
  rw [← hy]
  have hv := envDensity_pos s.xi k y
  have ht := jpaPdf_pos (wrap2pi y) s
  have hle : log (jpaPdf (wrap2pi y) s) - log (envDensity s.xi k y) ≤ ev k := by
    rw [hev]
    unfold envLogMax
    have := Finset.le_sup' (f := fun j => log (max ((distPdf jpaBase (pymod (s.xi + jpaGrid 2048 j) (2 * π)) s).getD 0) floatTiny)
      - logVonmisesPdf (pymod (s.xi + jpaGrid 2048 j) (2 * π)) s.xi k) (Finset.mem_range.2 hj)
    refine le_trans ?_ this
    rw [← hy, hsome, logVonmisesPdf_eq hr.1]
    have : log (jpaPdf (wrap2pi y) s) ≤ log (max (jpaPdf (wrap2pi y) s) floatTiny) := log_le_log ht (le_max_left _ _)
    simp only [Option.getD_some]
    linarith
  have h2 : (1 + 2 / 100) * (jpaPdf (wrap2pi y) s / envDensity s.xi k y) ≤ (jpaEnvelope s).2 := by
    rw [hM]
    refine le_trans ?_ (le_max_left _ _)
    rw [exp_add, exp_log (by norm_num), mul_comm]
    refine mul_le_mul_of_nonneg_right ?_ (by norm_num)
    rw [← log_div ht.ne' hv.ne'] at hle
    exact (log_le_iff_le_exp (div_pos ht hv)).1 hle
  have := mul_le_mul_of_nonneg_right h2 hv.le
  rwa [mul_assoc, div_mul_cancel₀ _ hv.ne'] at this

/-- **C102.** Asymmetric Jones-Pewsey: a proposal `p` is accepted by a share `min(1, target/(M·proposal))` of the uniform draws, and an
accepted draw is the proposal itself. -/
theorem C102_asym_trial (s : JPA) (vpdf : ℝ → ℝ) {p t : ℝ} (hv : 0 < vpdf p) (ht : distPdf jpaBase p s = some t) (ht0 : 0 ≤ t) :
    volume.real {u : ℝ | 0 ≤ u ∧ u < 1 ∧ jpaTrial vpdf s p u ≠ none} = min 1 (t / ((jpaEnvelope s).2 * vpdf p)) ∧
    ∀ u y, jpaTrial vpdf s p u = some y → y = p := by
  have hM : 0 < (jpaEnvelope s).2 := by
    unfold jpaEnvelope
    simp only
    rw [(envOptimize_spec _ _).2.1]
    exact lt_of_lt_of_le (by norm_num) (le_max_right _ _)
  obtain ⟨r, hr⟩ : ∃ r, r = t / ((jpaEnvelope s).2 * vpdf p) := ⟨_, rfl⟩
  have hr0 : 0 ≤ r := by rw [hr]; positivity
  have htr : ∀ u, jpaTrial vpdf s p u = if u ≤ r then some p else none := fun u => by
    unfold jpaTrial
    simp only
    rw [ht, if_pos hv, hr]
    rfl
  rw [← hr]
  refine ⟨?_, fun u y h => ?_⟩
  · by_cases h1 : r < 1
    · rw [show {u : ℝ | 0 ≤ u ∧ u < 1 ∧ jpaTrial vpdf s p u ≠ none} = Set.Icc 0 r by
        ext u
        simp only [Set.mem_ofPred_eq, htr, Set.mem_Icc]
        constructor
        · rintro ⟨a, b, c⟩
          refine ⟨a, ?_⟩
          by_contra hcon
          rw [if_neg hcon] at c; exact c rfl
        · rintro ⟨a, b⟩
          exact ⟨a, lt_of_le_of_lt b h1, by rw [if_pos b]; simp⟩, volume_real_Icc_of_le hr0, min_eq_right h1.le, sub_zero]
    · rw [show {u : ℝ | 0 ≤ u ∧ u < 1 ∧ jpaTrial vpdf s p u ≠ none} = Set.Ico 0 1 by
        ext u
        simp only [Set.mem_ofPred_eq, htr, Set.mem_Ico]
        constructor
        · rintro ⟨a, b, c⟩; exact ⟨a, b⟩
        · rintro ⟨a, b⟩
          exact ⟨a, b, by rw [if_pos (by linarith [not_lt.1 h1])]; simp⟩, volume_real_Ico_of_le zero_le_one, min_eq_left (not_lt.1 h1), sub_zero]
  · rw [htr] at h
    split_ifs at h
    exact (Option.some.inj h).symm

/-! ## A peak between two angles of the grid -/

/-- Half the distance of two neighbouring angles of the grid. -/
private noncomputable def dd : ℝ := π / 2048

private theorem dd_bounds : 0.00153 < dd ∧ dd < 0.00154 := by
  have h1 := pi_gt_d4
  have h2 := pi_lt_d4
  unfold dd
  constructor
  · rw [lt_div_iff₀ (by norm_num)]; norm_num at h1 ⊢; linarith
  · rw [div_lt_iff₀ (by norm_num)]; norm_num at h2 ⊢; linarith

private theorem cos_dd : 99 / 100 ≤ cos dd ∧ cos dd ≤ 1 := by
  obtain ⟨h1, h2⟩ := dd_bounds
  refine ⟨?_, cos_le_one _⟩
  have := one_sub_sq_div_two_le_cos (x := dd)
  nlinarith

/-- A skewness that puts the mode midway between two angles of the grid. -/
noncomputable def badNu : ℝ := (π / 2048) / cos (π / 2048)

/-- Parameters for which the envelope misses the peak. -/
noncomputable def badS : JPA := ⟨0, 13, -1, badNu⟩

private theorem badNu_bounds : dd ≤ badNu ∧ badNu ≤ 0.00156 := by
  obtain ⟨h1, h2⟩ := dd_bounds
  obtain ⟨c1, c2⟩ := cos_dd
  have e : badNu = dd / cos dd := rfl
  rw [e]
  constructor
  · rw [le_div_iff₀ (by linarith)]; nlinarith
  · rw [div_le_iff₀ (by linarith)]; norm_num at h2 ⊢; nlinarith

theorem badS_ok : jpaArgcheck badS := by
  obtain ⟨h1, h2⟩ := badNu_bounds
  obtain ⟨d1, d2⟩ := dd_bounds
  have hp := two_pi_pos
  refine ⟨⟨le_rfl, hp.le⟩, ?_, ?_, ?_⟩
  · show (0 : ℝ) ≤ 13; norm_num
  · show 0 ≤ badNu; linarith
  · show badNu < 1; norm_num at h2 ⊢; linarith

private theorem badKernel (u : ℝ) : jpKernel u 13 (-1) = (cosh 13 - sinh 13 * cos u)⁻¹ := by
  rw [jpKernel_eq (by unfold jpPsiTol; norm_num) (by norm_num)]
  rw [show (1 : ℝ) / -1 = -1 by norm_num, rpow_neg_one, mul_neg_one, cosh_neg, sinh_neg]
  congr 1; ring

private theorem badKernel_le (u : ℝ) {delta : ℝ} (hd : 0 < delta) (hu : cos u ≤ 1 - delta) : jpKernel u 13 (-1) ≤ 4 / (exp 13 * delta) := by
  have hs : exp 13 / 4 ≤ sinh 13 := by
    rw [sinh_eq]
    have h1 : exp (-13) ≤ 1 := exp_le_one_iff.2 (by norm_num)
    have h2 := add_one_le_exp (13 : ℝ)
    linarith
  have he := exp_pos 13
  have hcs : sinh 13 ≤ cosh 13 := (sinh_lt_cosh 13).le
  rw [badKernel, inv_eq_one_div, div_le_div_iff₀ (by nlinarith) (by positivity)]
  nlinarith

private theorem badKernel_peak : jpKernel 0 13 (-1) = exp 13 := by
  rw [badKernel, cos_zero, mul_one, cosh_sub_sinh, ← exp_neg, neg_neg]

private theorem badMass : ∫ t in (0 : ℝ)..(2 * π), jpaG 13 (-1) badNu (t - 0) ≤ 2 * π / (1 - badNu) := by
  obtain ⟨h1, h2⟩ := badNu_bounds
  obtain ⟨d1, d2⟩ := dd_bounds
  have hn1 : badNu < 1 := by norm_num at h2 ⊢; linarith
  have hn0 : 0 ≤ badNu := by linarith
  have hK := jpKernel_continuous 13 (-1)
  have hder : ∀ t, HasDerivAt (fun t : ℝ => t + badNu * cos t) (1 - badNu * sin t) t := fun t => by
    exact ((hasDerivAt_id' t).add ((hasDerivAt_cos t).const_mul badNu)).congr_deriv (by ring)
  have hsub := intervalIntegral.integral_comp_mul_deriv (a := 0) (b := 2 * π) (f := fun t : ℝ => t + badNu * cos t)
    (f' := fun t => 1 - badNu * sin t) (g := fun u => jpKernel u 13 (-1)) (fun t _ => hder t) (by fun_prop) hK
  have hfull : ∫ u in (0 + badNu * cos 0)..(2 * π + badNu * cos (2 * π)), jpKernel u 13 (-1) = 2 * π := by
    rw [cos_zero, cos_two_pi, show 2 * π + badNu * 1 = (0 + badNu * 1) + 2 * π by ring,
      (jpKernel_periodic 13 (-1)).intervalIntegral_add_eq (0 + badNu * 1) 0, zero_add]
    have e : ∀ t : ℝ, jpKernel t 13 (-1) = 2 * π * wcPdf t 0 (tanh (13 / 2)) := fun t => by
      have := jp_wrapcauchy_kernel (kappa := 13) (by norm_num) (by norm_num) 0 t
      rwa [sub_zero] at this
    simp only [e]
    rw [intervalIntegral.integral_const_mul,
      (wc_isCircularDensity 0 (tanh_pos' (by norm_num : (0 : ℝ) < 13 / 2)).le (tanh_lt_one _)).mass, mul_one]
  rw [le_div_iff₀ (by linarith), mul_comm, ← intervalIntegral.integral_const_mul]
  have hG := jpaG_continuous 13 (-1) badNu
  have key : ∫ t in (0 : ℝ)..(2 * π), (1 - badNu) * jpaG 13 (-1) badNu (t - 0)
      ≤ ∫ t in (0 : ℝ)..(2 * π), jpaG 13 (-1) badNu t * (1 - badNu * sin t) := by
    refine intervalIntegral.integral_mono_on two_pi_pos.le ((by fun_prop : Continuous fun t : ℝ => (1 - badNu) * jpaG 13 (-1) badNu (t - 0)).intervalIntegrable _ _)
      ((by fun_prop : Continuous fun t : ℝ => jpaG 13 (-1) badNu t * (1 - badNu * sin t)).intervalIntegrable _ _) fun t _ => ?_
    rw [sub_zero, mul_comm]
    refine mul_le_mul_of_nonneg_left ?_ (jpaG_pos _ _ _ _).le
    have := sin_le_one t
    nlinarith
  exact key.trans (hsub.trans hfull).le

private theorem exp13 : (4 : ℝ) * 10 ^ 5 ≤ exp 13 ∧ exp 13 ≤ 3 ^ 13 := by
  have h1 := exp_one_gt_d9
  have h2 := exp_one_lt_d9
  have e : exp 13 = exp 1 ^ 13 := by rw [← exp_nat_mul]; norm_num
  rw [e]
  constructor
  · calc (4 : ℝ) * 10 ^ 5 ≤ 2.718 ^ 13 := by norm_num
      _ ≤ exp 1 ^ 13 := pow_le_pow_left₀ (by norm_num) (by linarith) 13
  · exact pow_le_pow_left₀ (exp_pos _).le (by linarith) 13

private theorem env_low (x : ℝ) : 1 / (2 * π * exp 1 ^ 2) ≤ envDensity 0 1 x := by
  have hI : besselI 0 1 ≤ exp 1 := by
    unfold besselI
    have h : ∫ t in (0 : ℝ)..π, exp (1 * cos t) * cos ((0 : ℕ) * t) ≤ ∫ _ in (0 : ℝ)..π, exp 1 := by
      refine intervalIntegral.integral_mono_on pi_pos.le ((bessel_cont 0 1).intervalIntegrable _ _) (by simp) fun t _ => ?_
      simp only [Nat.cast_zero, zero_mul, cos_zero, mul_one, one_mul]
      exact exp_le_exp.2 (cos_le_one t)
    rw [intervalIntegral.integral_const, smul_eq_mul, sub_zero] at h
    rw [one_div, inv_mul_le_iff₀ pi_pos]
    exact h
  have hp := besselI_zero_pos 1
  unfold envDensity
  have h2 : exp (-1) ≤ exp (1 * cos (x - 0)) := exp_le_exp.2 (by linarith [neg_one_le_cos (x - 0)])
  rw [div_le_div_iff₀ (by positivity) (by positivity)]
  have h3 : exp (-1) * exp 1 = 1 := by rw [← exp_add]; norm_num
  have hpi := pi_pos
  have h4 := exp_pos 1
  calc 1 * (2 * π * besselI 0 1) ≤ 1 * (2 * π * exp 1) := by gcongr
    _ = exp (-1) * (2 * π * exp 1 ^ 2) := by linear_combination (-(2 * π * exp 1)) * h3
    _ ≤ exp (1 * cos (x - 0)) * (2 * π * exp 1 ^ 2) := by gcongr

private theorem env_high {k : ℝ} (h0 : 0 ≤ k) (h1 : k ≤ 10 ^ 4) (x : ℝ) : envDensity 0 k x ≤ 84 := by
  have hlow := bessel_lower h0
  have hI := besselI_zero_pos k
  have hpi := pi_pos
  have hs : √(k + 1) ≤ 101 := sqrt_le_iff.2 ⟨by norm_num, by norm_num; linarith⟩
  have hs0 : 0 < √(k + 1) := sqrt_pos.2 (by linarith)
  have he : exp (1 / 2) ≤ 1.65 := by
    have h2 := exp_one_lt_d9
    have e : exp (1 / 2) ^ 2 = exp 1 := by rw [← exp_nat_mul]; norm_num
    by_contra hcon
    nlinarith [not_le.1 hcon]
  unfold envDensity
  rw [div_le_iff₀ (by positivity)]
  have h3 : exp (k * cos (x - 0)) ≤ exp k := exp_le_exp.2 (by nlinarith [cos_le_one (x - 0)])
  rw [div_le_iff₀ hs0] at hlow
  have h4 : exp k = exp (k - 1 / 2) * exp (1 / 2) := by rw [← exp_add]; congr 1; ring
  have h5 : exp (k - 1 / 2) ≤ 101 / 2 * (2 * π * besselI 0 k) := by
    have hpos : 0 < 2 * π * besselI 0 k := by positivity
    nlinarith
  have h6 : 0 < exp (k - 1 / 2) := exp_pos _
  have hpos : 0 < 2 * π * besselI 0 k := by positivity
  calc exp (k * cos (x - 0)) ≤ exp (k - 1 / 2) * exp (1 / 2) := by rw [← h4]; exact h3
    _ ≤ exp (k - 1 / 2) * 1.65 := by gcongr
    _ ≤ 101 / 2 * (2 * π * besselI 0 k) * 1.65 := by gcongr
    _ ≤ 84 * (2 * π * besselI 0 k) := by norm_num; linarith

/-- The kernel at the angles of the grid. -/
private theorem badGrid {j : ℕ} (hj : j < 2048) : jpaG 13 (-1) badNu (jpaGrid 2048 j) ≤ 4 / (exp 13 * (45 / 10 ^ 8)) := by
  obtain ⟨h1, h2⟩ := badNu_bounds
  obtain ⟨d1, d2⟩ := dd_bounds
  have hpi := pi_gt_three
  have hpi4 := pi_lt_d4
  norm_num at h2 d1 d2 hpi4
  have hn1 : badNu < 1 := by linarith
  have hn0 : 0 ≤ badNu := by linarith
  have hmono := (warp_strictMono hn0 hn1).monotone
  have g0 : (0 : ℝ) ≤ jpaGrid 2048 j := by unfold jpaGrid; positivity
  have g1 : jpaGrid 2048 j ≤ 2 * π - 2 * dd := by
    have : (j : ℝ) ≤ 2047 := by exact_mod_cast Nat.le_of_lt_succ hj
    unfold jpaGrid dd
    push_cast
    nlinarith
  have u0 := hmono g0
  have u1 := hmono g1
  simp only [cos_zero] at u0 u1
  have hc := cos_le_one (2 * π - 2 * dd)
  obtain ⟨u, hu⟩ : ∃ u, u = jpaGrid 2048 j + badNu * cos (jpaGrid 2048 j) := ⟨_, rfl⟩
  rw [← hu] at u0 u1
  have ua : 15 / 10000 ≤ u := by linarith
  have ub : u ≤ 2 * π - 15 / 10000 := by nlinarith
  have hcos : cos u ≤ cos (15 / 10000) := by
    rcases le_total u π with h | h
    · exact cos_le_cos_of_nonneg_of_le_pi (by norm_num) h ua
    · rw [← cos_two_pi_sub u]
      exact cos_le_cos_of_nonneg_of_le_pi (by norm_num) (by linarith) (by linarith)
  have hq := cos_le_one_sub_mul_cos_sq (x := 15 / 10000) (by rw [abs_of_pos (by norm_num)]; linarith)
  have hq2 : (45 : ℝ) / 10 ^ 8 ≤ 2 / π ^ 2 * (15 / 10000) ^ 2 := by
    rw [div_mul_eq_mul_div, le_div_iff₀ (by positivity)]
    have : π ^ 2 ≤ 10 := by nlinarith
    nlinarith
  unfold jpaG
  rw [← hu]
  exact badKernel_le u (by norm_num) (by linarith)

private theorem no_const {M v0 t0 v1 t1 c : ℝ} (hM : 0 < M) (hv1 : 0 < v1) (ht1 : 0 < t1) (h1 : v0 = c * t0) (h2 : v1 * (t1 / (M * v1)) = c * t1)
    (hlt : M * v0 < t0) : False := by
  have hc : c = 1 / M := by
    rw [show v1 * (t1 / (M * v1)) = 1 / M * t1 by field_simp] at h2
    exact (mul_right_cancel₀ ht1.ne' h2).symm
  rw [h1, hc, ← mul_assoc, mul_one_div_cancel hM.ne', one_mul] at hlt
  exact lt_irrefl _ hlt

/-- **C102.** The documentation of `rvs` says "an exact acceptance-rejection scheme". For `ξ = 0`, `κ = 13`,
`ψ = -1` and a skewness that puts the mode between two angles of the grid, it is not exact: at the mode the target is above the envelope,
and the density of an accepted draw (proposal density times share of accepting uniforms) is not proportional to the target. -/
theorem C102_asym_not_exact :
    let v := envDensity badS.xi (jpaEnvelope badS).1
    let t := fun x => (distPdf jpaBase x badS).getD 0
    let accept := fun x => volume.real {u : ℝ | 0 ≤ u ∧ u < 1 ∧ jpaTrial v badS x u ≠ none}
    (∃ x, RegularAngle x ∧ (jpaEnvelope badS).2 * v x < t x) ∧ ¬ ∃ c, ∀ x, RegularAngle x → v x * accept x = c * t x := by
  intro v t accept
  have hpi := pi_gt_three
  have hpi4 := pi_lt_d4
  obtain ⟨n1, n2⟩ := badNu_bounds
  obtain ⟨d1, d2⟩ := dd_bounds
  obtain ⟨e1, e2⟩ := exp13
  norm_num at n2 d1 d2 hpi4
  obtain ⟨Z, hZ⟩ : ∃ Z, Z = ∫ t in (0 : ℝ)..(2 * π), jpaG 13 (-1) badNu (t - 0) := ⟨_, rfl⟩
  have hZ0 : 0 < Z := by rw [hZ]; exact jpaG_mass_pos 0 13 (-1) badNu
  have hZ1 : Z ≤ 7 := by
    have := badMass
    rw [← hZ] at this
    refine this.trans ?_
    rw [div_le_iff₀ (by linarith)]
    linarith
  have hpdf : ∀ x, jpaPdf x badS = jpaG 13 (-1) badNu x / Z := fun x => by
    have := jpaPdf_eq (s := badS) (show (1 : ℝ) / 10 ^ 3 ≤ 13 by norm_num) x
    rw [this, hZ]
    show jpaG 13 (-1) badNu (x - 0) / _ = _
    rw [sub_zero]
    rfl
  have ht : ∀ x, RegularAngle x → distPdf jpaBase x badS = some (jpaG 13 (-1) badNu x / Z) := fun x hx => by
    rw [distPdf_regular jpaBase (show jpaBase.argcheck badS from badS_ok) hx]
    exact congrArg some (hpdf x)
  -- the grid
  have hgr : ∀ j, j < 2048 → pymod (badS.xi + jpaGrid 2048 j) (2 * π) = jpaGrid 2048 j ∧ RegularAngle (jpaGrid 2048 j) := by
    intro j hj
    have g0 : (0 : ℝ) ≤ jpaGrid 2048 j := by unfold jpaGrid; positivity
    have g1 : jpaGrid 2048 j ≤ 2 * π - 2 * dd := by
      have : (j : ℝ) ≤ 2047 := by exact_mod_cast Nat.le_of_lt_succ hj
      unfold jpaGrid dd
      push_cast
      nlinarith
    have h14 : (1 : ℝ) / 10 ^ 14 ≤ 1 / 1000 := by norm_num
    refine ⟨?_, g0, Or.inl (by linarith)⟩
    rw [show badS.xi + jpaGrid 2048 j = jpaGrid 2048 j by show 0 + _ = _; rw [zero_add]]
    exact pymod_eq_self two_pi_pos g0 (by linarith)
  obtain ⟨ev, hev⟩ : ∃ ev, ev = envLogMax 2048 ⟨0, by simp⟩ (fun j => pymod (badS.xi + jpaGrid 2048 j) (2 * π))
    (fun j => log (max ((distPdf jpaBase (pymod (badS.xi + jpaGrid 2048 j) (2 * π)) badS).getD 0) floatTiny)) badS.xi := ⟨_, rfl⟩
  obtain ⟨hr, hM, hbest⟩ := envOptimize_spec ev (max (jpEffectiveKappa badS.kappa badS.psi) (1 / 10 ^ 6))
  have henv : jpaEnvelope badS = envOptimize ev (max (jpEffectiveKappa badS.kappa badS.psi) (1 / 10 ^ 6)) := by rw [hev]; rfl
  rw [← henv] at hr hM hbest
  obtain ⟨T, hT⟩ : ∃ T, T = 4 / (exp 13 * (45 / 10 ^ 8)) / Z := ⟨_, rfl⟩
  have hTpos : 0 < T := by rw [hT]; positivity
  have hTtiny : floatTiny ≤ T := by
    have h1 : (1 : ℝ) / 10 ^ 20 ≤ T := by
      rw [hT, div_div, div_le_div_iff₀ (by positivity) (by positivity)]
      have := exp_pos 13
      calc 1 * (exp 13 * (45 / 10 ^ 8) * Z) ≤ 1 * (3 ^ 13 * (45 / 10 ^ 8) * 7) := by gcongr
        _ ≤ 4 * 10 ^ 20 := by norm_num
    exact floatTiny_le_small.trans h1
  have hev1 : ev 1 ≤ log (T * (2 * π * exp 1 ^ 2)) := by
    rw [hev]
    unfold envLogMax
    refine Finset.sup'_le _ _ fun j hj => ?_
    obtain ⟨a, b⟩ := hgr j (Finset.mem_range.1 hj)
    simp only [a]
    rw [ht _ b, logVonmisesPdf_eq (by norm_num), Option.getD_some]
    have hv := envDensity_pos badS.xi 1 (jpaGrid 2048 j)
    have hlow := env_low (jpaGrid 2048 j)
    have hmax : max (jpaG 13 (-1) badNu (jpaGrid 2048 j) / Z) floatTiny ≤ T :=
      max_le (by rw [hT]; exact div_le_div_of_nonneg_right (badGrid (Finset.mem_range.1 hj)) hZ0.le) hTtiny
    have hmp : 0 < max (jpaG 13 (-1) badNu (jpaGrid 2048 j) / Z) floatTiny := lt_of_lt_of_le floatTiny_pos (le_max_right _ _)
    rw [← log_div hmp.ne' hv.ne']
    refine log_le_log (div_pos hmp hv) ?_
    rw [div_le_iff₀ hv]
    have hB : 0 < 2 * π * exp 1 ^ 2 := by positivity
    have : 1 ≤ (2 * π * exp 1 ^ 2) * envDensity badS.xi 1 (jpaGrid 2048 j) := by
      rw [div_le_iff₀ hB] at hlow
      show 1 ≤ (2 * π * exp 1 ^ 2) * envDensity 0 1 (jpaGrid 2048 j)
      linarith
    calc _ ≤ T * 1 := by rw [mul_one]; exact hmax
      _ ≤ T * ((2 * π * exp 1 ^ 2) * envDensity badS.xi 1 (jpaGrid 2048 j)) := by gcongr
      _ = _ := by ring
  have hM1 : (jpaEnvelope badS).2 ≤ max (T * (2 * π * exp 1 ^ 2) * (1 + 2 / 100)) (101 / 100) := by
    rw [hM]
    refine max_le_max_right _ ?_
    rw [exp_add, exp_log (by norm_num)]
    refine mul_le_mul_of_nonneg_right ?_ (by norm_num)
    exact (exp_le_exp.2 (hbest.trans hev1)).trans (exp_log (by positivity)).le
  have hMpos : 0 < (jpaEnvelope badS).2 := by rw [hM]; exact lt_of_lt_of_le (by norm_num) (le_max_right _ _)
  -- the mode
  obtain ⟨x0, hx0⟩ : ∃ x0, x0 = 2 * π - dd := ⟨_, rfl⟩
  have hx0r : RegularAngle x0 := by
    have h14 : (1 : ℝ) / 10 ^ 14 ≤ 1 / 1000 := by norm_num
    rw [hx0]; exact ⟨by linarith, Or.inl (by linarith)⟩
  have hpeak : jpaG 13 (-1) badNu x0 = exp 13 := by
    have hcd := cos_dd
    unfold jpaG
    rw [hx0, cos_two_pi_sub, show 2 * π - dd + badNu * cos dd = 0 + 2 * π by
      rw [show badNu = dd / cos dd from rfl, div_mul_cancel₀ _ (by linarith : cos dd ≠ 0)]; ring]
    exact (jpKernel_periodic 13 (-1) 0).trans badKernel_peak
  have hv84 : v x0 ≤ 84 := env_high (by have := hr.1; have h : (0 : ℝ) < 1 / 10 ^ 6 := by positivity
                                        linarith) hr.2 x0
  have hvpos : ∀ x, 0 < v x := fun x => envDensity_pos _ _ _
  have htx : t x0 = exp 13 / Z := by
    show (distPdf jpaBase x0 badS).getD 0 = _
    rw [ht x0 hx0r, hpeak]; rfl
  have he2 : exp 1 ^ 2 ≤ 7.4 := by
    have h2 := exp_one_lt_d9
    have := exp_pos 1
    nlinarith
  have hexc : (jpaEnvelope badS).2 * v x0 < t x0 := by
    have hex := exp_pos 13
    have b1 : (jpaEnvelope badS).2 * v x0 ≤ max (T * (2 * π * exp 1 ^ 2) * (1 + 2 / 100)) (101 / 100) * 84 :=
      mul_le_mul hM1 hv84 (hvpos x0).le (le_trans (by norm_num) (le_max_right _ _))
    refine lt_of_le_of_lt b1 ?_
    rw [htx, max_mul_of_nonneg _ _ (by norm_num)]
    refine max_lt ?_ ?_
    · have hT2 : T * (2 * π * exp 1 ^ 2) * (1 + 2 / 100) * 84 ≤ T * 3990 := by
        have : 2 * π * exp 1 ^ 2 ≤ 46.5 := by
          norm_num at he2 ⊢
          nlinarith [exp_pos 1]
        norm_num at this ⊢
        nlinarith
      refine lt_of_le_of_lt hT2 ?_
      rw [hT, div_mul_eq_mul_div]
      refine div_lt_div_of_pos_right ?_ hZ0
      rw [div_mul_eq_mul_div, div_lt_iff₀ (by positivity)]
      have : (4 * 10 ^ 5) * (4 * 10 ^ 5) ≤ exp 13 * exp 13 := by gcongr
      norm_num at this ⊢
      nlinarith
    · rw [lt_div_iff₀ hZ0]
      norm_num at e1 ⊢
      linarith
  refine ⟨⟨x0, hx0r, hexc⟩, ?_⟩
  rintro ⟨c, hc⟩
  have hacc : ∀ x, RegularAngle x → accept x = min 1 (t x / ((jpaEnvelope badS).2 * v x)) := fun x hx => by
    have h1 := ht x hx
    have htv : t x = jpaG 13 (-1) badNu x / Z := by show (distPdf jpaBase x badS).getD 0 = _; rw [h1]; rfl
    rw [htv]
    exact (C102_asym_trial badS v (hvpos x) h1 (div_pos (jpaG_pos _ _ _ _) hZ0).le).1
  -- at the mode
  have m1 := hc x0 hx0r
  rw [hacc x0 hx0r, min_eq_left ((one_le_div (mul_pos hMpos (hvpos x0))).2 hexc.le), mul_one] at m1
  -- at an angle of the grid
  obtain ⟨g1, g2⟩ := hgr 0 (by norm_num)
  obtain ⟨y, hy⟩ : ∃ y, y = jpaGrid 2048 0 := ⟨_, rfl⟩
  rw [← hy] at g1 g2
  obtain ⟨t0, a, b⟩ := C102_asym_grid badS_ok (j := 0) (by norm_num)
  have hgrid : ((0 : ℕ) : ℝ) * (2 * π / 2048) = jpaGrid 2048 0 := by unfold jpaGrid; push_cast; ring
  rw [hgrid, ← hy, g1] at a b
  have hty : t y = t0 := by show (distPdf jpaBase y badS).getD 0 = _; rw [a]; rfl
  have ht0 : 0 < t0 := by
    rw [ht y g2] at a
    rw [← Option.some.inj a]
    exact div_pos (jpaG_pos _ _ _ _) hZ0
  have m2 := hc y g2
  have hle : t y / ((jpaEnvelope badS).2 * v y) ≤ 1 := (div_le_one (mul_pos hMpos (hvpos y))).2 (by
    rw [hty]
    have : t0 ≤ (1 + 2 / 100) * t0 := by nlinarith
    exact this.trans b)
  rw [hacc y g2, min_eq_right hle, hty] at m2
  exact no_const hMpos (hvpos y) ht0 m1 m2 hexc

end Verif
