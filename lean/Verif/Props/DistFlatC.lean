import Verif.Props.DistFlatB

/-! # Property C102 for the flat-topped von Mises distribution: the law of the samples -/

set_option autoImplicit false

namespace Verif

open Real MeasureTheory Verif.Spec

private lemma accept_share (r : ℝ) : volume.real {u : ℝ | 0 < u ∧ u < 1 ∧ log u ≤ r} = min 1 (exp r) := by
  have hr := exp_pos r
  rcases le_or_gt 1 (exp r) with h | h
  · have e : {u : ℝ | 0 < u ∧ u < 1 ∧ log u ≤ r} = Set.Ioo 0 1 := by
      ext u
      refine ⟨fun ⟨a, b, _⟩ => ⟨a, b⟩, fun ⟨a, b⟩ => ⟨a, b, ?_⟩⟩
      rw [log_le_iff_le_exp a]; linarith
    rw [e, min_eq_left h]
    simp [Measure.real]
  · have e : {u : ℝ | 0 < u ∧ u < 1 ∧ log u ≤ r} = Set.Ioc 0 (exp r) := by
      ext u
      refine ⟨fun ⟨a, b, c⟩ => ⟨a, (log_le_iff_le_exp a).1 c⟩, fun ⟨a, b⟩ => ⟨a, by linarith, (log_le_iff_le_exp a).2 b⟩⟩
    rw [e, min_eq_right h.le]
    simp [Measure.real, hr.le]

/-- `nu ≥ 0`: the ratio of target and envelope is largest opposite the mean. -/
private lemma ratio_pos {kappa nu : ℝ} (hk : 0 ≤ kappa) (hn0 : 0 ≤ nu) (hn1 : nu ≤ 1) {t : ℝ} (h0 : 0 ≤ t) (h1 : t ≤ π) :
    kappa * cos (t + nu * sin t) - kappa * (1 + nu) ^ 2 * cos t ≤ -kappa + kappa * (1 + nu) ^ 2 := by
  obtain ⟨p, hp⟩ : ∃ p, p = π - t := ⟨_, rfl⟩
  have hp0 : 0 ≤ p := by linarith
  have hp1 : p ≤ π := by linarith
  have ht : t = π - p := by linarith
  have hs0 : 0 ≤ sin p := sin_nonneg_of_nonneg_of_le_pi hp0 hp1
  have hsp : sin p ≤ p := sin_le hp0
  have e1 : cos (t + nu * sin t) = -cos (p - nu * sin p) := by
    rw [ht, sin_pi_sub, show π - p + nu * sin p = π - (p - nu * sin p) by ring, cos_pi_sub]
  have e2 : cos t = -cos p := by rw [ht, cos_pi_sub]
  have h3 : 0 ≤ p - nu * sin p := by nlinarith
  have h4 : p - nu * sin p ≤ p := by nlinarith
  have h5 : cos p ≤ cos (p - nu * sin p) := cos_le_cos_of_nonneg_of_le_pi h3 hp1 h4
  have h6 := cos_le_one p
  have h7 : 1 - cos (p - nu * sin p) ≤ (1 + nu) ^ 2 * (1 - cos p) := by
    have : 1 * (1 - cos p) ≤ (1 + nu) ^ 2 * (1 - cos p) := mul_le_mul_of_nonneg_right (by nlinarith) (by linarith)
    linarith
  rw [e1, e2]
  nlinarith [mul_le_mul_of_nonneg_left h7 hk]

/-- `nu ≤ 0`: the ratio is largest at the mean. -/
private lemma ratio_neg {kappa nu : ℝ} (hk : 0 ≤ kappa) (hn0 : -1 ≤ nu) (hn1 : nu ≤ 0) {t : ℝ} (h0 : 0 ≤ t) (h1 : t ≤ π) :
    kappa * cos (t + nu * sin t) - kappa * (1 + nu) ^ 2 * cos t ≤ kappa - kappa * (1 + nu) ^ 2 := by
  have hs0 : 0 ≤ sin t := sin_nonneg_of_nonneg_of_le_pi h0 h1
  have hst : sin t ≤ t := sin_le h0
  have hpi := pi_pos
  have hc : (1 + nu) * sin (t / 2) ≤ sin ((1 + nu) * (t / 2)) := by
    have hcv : ConcaveOn ℝ (Set.Icc 0 π) sin := strictConcaveOn_sin_Icc.concaveOn
    have := hcv.2 (show t / 2 ∈ Set.Icc 0 π from ⟨by linarith, by linarith⟩) (show (0 : ℝ) ∈ Set.Icc 0 π from ⟨le_rfl, hpi.le⟩)
      (show 0 ≤ 1 + nu by linarith) (show 0 ≤ -nu by linarith) (by ring)
    simpa using this
  have hm : sin ((1 + nu) * (t / 2)) ≤ sin ((t + nu * sin t) / 2) := by
    refine sin_le_sin_of_le_of_le_pi_div_two ?_ ?_ ?_
    · nlinarith
    · nlinarith
    · nlinarith
  have h2 : 0 ≤ sin (t / 2) := sin_nonneg_of_nonneg_of_le_pi (by linarith) (by linarith)
  have h3 : ((1 + nu) * sin (t / 2)) ^ 2 ≤ sin ((t + nu * sin t) / 2) ^ 2 :=
    pow_le_pow_left₀ (mul_nonneg (by linarith) h2) (hc.trans hm) 2
  have e : ∀ x : ℝ, cos x = 1 - 2 * sin (x / 2) ^ 2 := fun x => by
    have := cos_sq_add_sin_sq (x / 2)
    have h := cos_two_mul (x / 2)
    rw [show 2 * (x / 2) = x by ring] at h
    rw [h]; linarith
  rw [e (t + nu * sin t), e t]
  nlinarith [mul_le_mul_of_nonneg_left h3 hk]

/-- The logarithm of the ratio is largest at the mean or opposite it. -/
private lemma ratio_le {kappa nu : ℝ} (hk : 0 ≤ kappa) (hn : |nu| ≤ 1) (t : ℝ) :
    kappa * cos (t + nu * sin t) - kappa * (1 + nu) ^ 2 * cos t ≤ max (-kappa + kappa * (1 + nu) ^ 2) (kappa - kappa * (1 + nu) ^ 2) := by
  obtain ⟨hn0, hn1⟩ := abs_le.1 hn
  obtain ⟨g, hg⟩ : ∃ g : ℝ → ℝ, g = fun t => kappa * cos (t + nu * sin t) - kappa * (1 + nu) ^ 2 * cos t := ⟨_, rfl⟩
  have hev : ∀ t, g (-t) = g t := fun t => by
    rw [hg]; simp only
    rw [sin_neg, cos_neg, show -t + nu * -sin t = -(t + nu * sin t) by ring, cos_neg]
  have hper : Function.Periodic g (2 * π) := fun t => by
    rw [hg]; simp only
    rw [sin_add_two_pi, cos_add_two_pi, show t + 2 * π + nu * sin t = t + nu * sin t + 2 * π by ring, cos_add_two_pi]
  have hhalf : ∀ t, 0 ≤ t → t ≤ π → g t ≤ max (-kappa + kappa * (1 + nu) ^ 2) (kappa - kappa * (1 + nu) ^ 2) := by
    intro t h0 h1
    rw [hg]
    rcases le_total 0 nu with h | h
    · exact (ratio_pos hk h hn1 h0 h1).trans (le_max_left _ _)
    · exact (ratio_neg hk hn0 h h0 h1).trans (le_max_right _ _)
  obtain ⟨y, hy, hty⟩ := hper.exists_mem_Ico₀ two_pi_pos t
  have : g t ≤ max (-kappa + kappa * (1 + nu) ^ 2) (kappa - kappa * (1 + nu) ^ 2) := by
    rw [hty]
    rcases le_total y π with h | h
    · exact hhalf y hy.1 h
    · have := hhalf (2 * π - y) (by linarith [hy.2]) (by linarith)
      rwa [show 2 * π - y = -y + 2 * π by ring, hper, hev] at this
  rw [hg] at this
  exact this

private lemma size_even (a : ℝ) : ∃ m, tabSize a = 2 * m := by
  unfold tabSize
  simp only
  generalize min (max (2 ^ ⌈logb 2 (clip (64 + 12 * a) 512 8192)⌉₊) 512) 8192 = S
  split_ifs with h
  · exact ⟨(S + 1) / 2, by omega⟩
  · exact ⟨S / 2, by omega⟩

/-- The proposals' density times the accepted share, for the envelope's concentration `k`: the multiplier `exp m` is above the
ratio of the densities up to the factor `exp d`. -/
private lemma flat_law (mu : ℝ) {kappa nu : ℝ} (hk0 : 0 < kappa) (hk1 : kappa ≤ 1000) (hn : |nu| ≤ 1) {k d : ℝ}
    (henv : vmftEnvKappa kappa nu = k)
    (hd : ∀ x, kappa * cos (x + nu * sin x) - k * cos x ≤ max (-kappa + k) (kappa - k) + d) :
    ∃ m : ℝ, (∀ p u y, vmftTrial ⟨mu, kappa, nu⟩ p u = some y → y = pymod p (2 * π)) ∧
      ∀ p, exp (-d) * (exp (-m) * flatG kappa nu (vmftGridSize kappa nu) (p - mu)) ≤
          exp (k * cos (p - mu)) / (2 * π * besselI 0 k) * volume.real {u : ℝ | 0 < u ∧ u < 1 ∧ vmftTrial ⟨mu, kappa, nu⟩ p u ≠ none} ∧
        exp (k * cos (p - mu)) / (2 * π * besselI 0 k) * volume.real {u : ℝ | 0 < u ∧ u < 1 ∧ vmftTrial ⟨mu, kappa, nu⟩ p u ≠ none}
          ≤ exp (-m) * flatG kappa nu (vmftGridSize kappa nu) (p - mu) := by
  have hd0 : 0 ≤ d := by
    have h1 := hd 0
    have h2 := hd π
    rw [sin_zero, mul_zero, add_zero, cos_zero] at h1
    rw [sin_pi, mul_zero, add_zero, cos_pi] at h2
    rcases max_cases (-kappa + k) (kappa - k) with h | h <;> linarith [h.1]
  obtain ⟨Z, hZ⟩ : ∃ Z, Z = 2 * π * besselI 0 k := ⟨_, rfl⟩
  have hI := besselI_zero_pos k
  have hZ0 : 0 < Z := by rw [hZ]; positivity
  have hlz : vmftLogEnvNorm k = log Z := by
    unfold vmftLogEnvNorm
    rw [log_mul (exp_pos _).ne' hI.ne', log_exp, hZ, log_mul (by positivity) hI.ne']
    ring
  obtain ⟨g1, -, -⟩ := vmftGrid_spec hk0.le hk1 hn
  have htab := vmftTable_floor hk0.le hk1 hn
  have hev : ∃ m, vmftGridSize kappa nu = 2 * m := size_even _
  obtain ⟨m, hm⟩ : ∃ m, m = vmftLogMultiplier kappa nu := ⟨_, rfl⟩
  have hm' : m = log (exp ((Finset.range (vmftGridSize kappa nu + 1)).sup' ⟨0, by simp⟩ fun j =>
      log (vmftTable kappa nu (vmftGridSize kappa nu) j) - (k * cos (tabGrid (vmftGridSize kappa nu) j) - log Z)) * (1 + 5 / 10 ^ 12)) := by
    rw [hm]; unfold vmftLogMultiplier; simp only [henv, hlz]
  have htr : ∀ p u, vmftTrial ⟨mu, kappa, nu⟩ p u = if log u ≤ vmftLogKernel kappa nu (tabRel p (pymod mu (2 * π)))
      + vmftLogNorm kappa nu (vmftGridSize kappa nu)
      - (k * cos (tabRel p (pymod mu (2 * π))) - log Z) - m then some (pymod p (2 * π)) else none := fun p u => by
    unfold vmftTrial
    simp only [henv, hlz, hm]
  obtain ⟨N, hNd⟩ : ∃ N, N = vmftGridSize kappa nu := ⟨_, rfl⟩
  rw [← hNd] at g1 htab hev hm' htr ⊢
  have hN : 0 < N := by omega
  -- the multiplier is above the ratio at every grid angle
  have hgrid : ∀ j, j ≤ N → log (flatG kappa nu N (tabGrid N j)) - (k * cos (tabGrid N j) - log Z) ≤ m := by
    intro j hj
    have h0 := Finset.le_sup' (fun j => log (vmftTable kappa nu N j) - (k * cos (tabGrid N j) - log Z)) (Finset.mem_range.2 (Nat.lt_succ_of_le hj))
    have h1 : log (flatG kappa nu N (tabGrid N j)) ≤ log (vmftTable kappa nu N j) := by
      refine log_le_log (flatG_pos hN _ _ _) ?_
      rw [htab]
      exact le_max_left _ _
    have h2 : (Finset.range (N + 1)).sup' ⟨0, by simp⟩ (fun j => log (vmftTable kappa nu N j) - (k * cos (tabGrid N j) - log Z)) ≤ m := by
      rw [hm', log_mul (exp_pos _).ne' (by norm_num), log_exp]
      exact le_add_of_nonneg_right (log_nonneg (by norm_num))
    linarith
  have hlogG : ∀ x, log (flatG kappa nu N x) = kappa * cos (x + nu * sin x) - log (flatZN kappa nu N) := by
    intro x
    unfold flatG flatKernel
    rw [log_div (exp_pos _).ne' (flatZN_pos hN kappa nu).ne', log_exp]
  -- hence above the ratio everywhere, up to the factor
  have hall : ∀ x, log (flatG kappa nu N x) - (k * cos x - log Z) ≤ m + d := by
    intro x
    rw [hlogG]
    have h1 := hgrid 0 (Nat.zero_le _)
    rw [hlogG, tabGrid_zero, cos_neg, cos_pi, sin_neg, sin_pi, neg_zero, mul_zero, add_zero, cos_neg, cos_pi] at h1
    obtain ⟨M, hM⟩ := hev
    have h2 := hgrid M (by omega)
    have e0 : tabGrid N M = 0 := by
      have hMR : (0 : ℝ) < M := by exact_mod_cast (by omega : 0 < M)
      unfold tabGrid
      rw [hM]; push_cast
      field_simp
      ring
    rw [hlogG, e0, cos_zero, sin_zero, mul_zero, add_zero, cos_zero] at h2
    have h3 := hd x
    rcases max_cases (-kappa + k) (kappa - k) with h | h <;> linarith [h.1]
  have hcosp : Function.Periodic (fun t => cos t) (2 * π) := cos_periodic
  have hGp : Function.Periodic (flatG kappa nu N) (2 * π) := fun t => by unfold flatG; rw [flatKernel_periodic]
  have hrel : ∀ {g : ℝ → ℝ}, Function.Periodic g (2 * π) → ∀ p, g (tabRel p (pymod mu (2 * π))) = g (p - mu) := by
    intro g hg p
    rw [periodic_tabRel hg]
    obtain ⟨j, hj⟩ := pymod_cong mu (2 * π)
    rw [hj, show p - (mu + j * (2 * π)) = p - mu - j * (2 * π) by ring]
    exact hg.sub_int_mul_eq j
  refine ⟨m, fun p u y h => ?_, fun p => ?_⟩
  · rw [htr] at h
    split_ifs at h
    exact (Option.some.inj h).symm
  have hg := flatG_pos hN kappa nu (p - mu)
  have e1 : vmftLogKernel kappa nu (tabRel p (pymod mu (2 * π))) + vmftLogNorm kappa nu N = log (flatG kappa nu N (p - mu)) := by
    rw [← hrel hGp p, ← flatG_eq hN, log_exp]
  have e2 : cos (tabRel p (pymod mu (2 * π))) = cos (p - mu) := hrel hcosp p
  have e : ∀ u, vmftTrial ⟨mu, kappa, nu⟩ p u ≠ none ↔ log u ≤ log (flatG kappa nu N (p - mu)) - (k * cos (p - mu) - log Z) - m := by
    intro u
    rw [htr, e1, e2]
    split_ifs with h <;> simp [h]
  simp only [e]
  have hv : exp (k * cos (p - mu)) / (2 * π * besselI 0 k) = exp (k * cos (p - mu) - log Z) := by
    rw [← hZ, exp_sub, exp_log hZ0]
  have hG : exp (-m) * flatG kappa nu N (p - mu) = exp (k * cos (p - mu) - log Z)
      * exp (log (flatG kappa nu N (p - mu)) - (k * cos (p - mu) - log Z) - m) := by
    rw [← exp_add, show k * cos (p - mu) - log Z + (log (flatG kappa nu N (p - mu)) - (k * cos (p - mu) - log Z) - m)
      = -m + log (flatG kappa nu N (p - mu)) by ring, exp_add, exp_log hg]
  rw [accept_share, hv, hG]
  constructor
  · rw [mul_left_comm]
    refine mul_le_mul_of_nonneg_left (le_min ?_ ?_) (exp_pos _).le
    · rw [← exp_add]
      exact exp_le_one_iff.2 (by linarith [hall (p - mu)])
    · exact mul_le_of_le_one_left (exp_pos _).le (exp_le_one_iff.2 (by linarith))
  · exact mul_le_mul_of_nonneg_left (min_le_right _ _) (exp_pos _).le

/-- **C102.** Flat-topped von Mises, for `1e-6 ≤ kappa (1 + nu)² ≤ 1000`: the sampler is exact. An accepted draw is its proposal,
wrapped; the von Mises density of the proposal times the share of uniform draws accepting it is a constant multiple of `pdf`; so
the accepted draws have exactly the probabilities of the flat-topped von Mises law, its normalising constant included. -/
theorem C102_flat (guess : ℝ → ℝ) (mu kappa nu : ℝ) (hm0 : 0 ≤ mu) (hm1 : mu ≤ 2 * π) (hk0 : 1 / 10 ^ 9 < kappa) (hk1 : kappa ≤ 1000)
    (hn : |nu| ≤ 1) (he0 : 1 / 10 ^ 6 ≤ kappa * (1 + nu) ^ 2) (he1 : kappa * (1 + nu) ^ 2 ≤ 1000) :
    let s : VMFT := ⟨mu, kappa, nu⟩
    let k := kappa * (1 + nu) ^ 2
    let v := fun p => exp (k * cos (p - mu)) / (2 * π * besselI 0 k)
    let t := fun p => (vmftPdfMethod guess p s).getD 0
    let accept := fun p => volume.real {u : ℝ | 0 < u ∧ u < 1 ∧ vmftTrial s p u ≠ none}
    (∀ p u y, vmftTrial s p u = some y → y = pymod p (2 * π)) ∧
    (∃ c, 0 < c ∧ ∀ p, RegularAngle p → 0 < t p ∧ v p * accept p = c * t p) ∧
    ∀ x, (∫ p in (0 : ℝ)..x, v p * accept p) / (∫ p in (0 : ℝ)..(2 * π), v p * accept p)
        = (∫ p in (0 : ℝ)..x, flatShape kappa nu (p - mu)) / ∫ p in (0 : ℝ)..(2 * π), flatShape kappa nu (p - mu) := by
  intro s k v t accept
  have hk00 : 0 < kappa := lt_trans (by positivity) hk0
  have henv : vmftEnvKappa kappa nu = k := by
    unfold vmftEnvKappa clip vmftKappaUpper
    rw [max_eq_left he0, min_eq_left (by linarith)]
  obtain ⟨m, h1, h2⟩ := flat_law mu hk00 hk1 hn (d := 0) henv fun x => by rw [add_zero]; exact ratio_le hk00.le hn x
  obtain ⟨g1, -, -⟩ := vmftGrid_spec hk00.le hk1 hn
  have hpdf := fun p (hp : RegularAngle p) => vmftPdfMethod_eq guess hm0 hm1 hk0 hk1 hn hp
  obtain ⟨N, hNd⟩ : ∃ N, N = vmftGridSize kappa nu := ⟨_, rfl⟩
  rw [← hNd] at g1 h2 hpdf
  have hN : 0 < N := by omega
  have hva : ∀ p, v p * accept p = exp (-m) * flatG kappa nu N (p - mu) := fun p =>
    le_antisymm (h2 p).2 (by have := (h2 p).1; rwa [neg_zero, exp_zero, one_mul] at this)
  have ht : ∀ p, RegularAngle p → t p = flatG kappa nu N (p - mu) := fun p hp => by
    show (vmftPdfMethod guess p s).getD 0 = _
    rw [hpdf p hp]; rfl
  refine ⟨h1, ⟨exp (-m), exp_pos _, fun p hp => ⟨?_, ?_⟩⟩, fun x => ?_⟩
  · rw [ht p hp]; exact flatG_pos hN _ _ _
  · rw [hva, ht p hp]
  · have hZN := flatZN_pos hN kappa nu
    have e : ∀ x, ∫ p in (0 : ℝ)..x, v p * accept p = exp (-m) / flatZN kappa nu N * ∫ p in (0 : ℝ)..x, flatShape kappa nu (p - mu) := by
      intro x
      rw [← intervalIntegral.integral_const_mul]
      refine intervalIntegral.integral_congr fun p _ => ?_
      rw [hva]
      show _ * (flatShape kappa nu (p - mu) / _) = _
      ring
    rw [e, e, mul_div_mul_left _ _ (by positivity)]

/-- **C102.** Flat-topped von Mises with `kappa (1 + nu)² < 1e-6` (so `nu` near -1), where the concentration of the proposals is
raised to `1e-6`: the density of an accepted draw is proportional to `pdf` up to a factor between `exp(-2e-6)` and 1. -/
theorem C102_flat_low (guess : ℝ → ℝ) (mu kappa nu : ℝ) (hm0 : 0 ≤ mu) (hm1 : mu ≤ 2 * π) (hk0 : 1 / 10 ^ 6 < kappa) (hk1 : kappa ≤ 1000)
    (hn : |nu| ≤ 1) (he : kappa * (1 + nu) ^ 2 < 1 / 10 ^ 6) :
    let s : VMFT := ⟨mu, kappa, nu⟩
    let v := fun p => exp (1 / 10 ^ 6 * cos (p - mu)) / (2 * π * besselI 0 (1 / 10 ^ 6))
    let t := fun p => (vmftPdfMethod guess p s).getD 0
    let accept := fun p => volume.real {u : ℝ | 0 < u ∧ u < 1 ∧ vmftTrial s p u ≠ none}
    ∃ c, 0 < c ∧ ∀ p, RegularAngle p → 0 < t p ∧ exp (-(2 / 10 ^ 6)) * (c * t p) ≤ v p * accept p ∧ v p * accept p ≤ c * t p := by
  intro s v t accept
  have hk00 : 0 < kappa := lt_trans (by positivity) hk0
  have henv : vmftEnvKappa kappa nu = 1 / 10 ^ 6 := by
    unfold vmftEnvKappa clip vmftKappaUpper
    rw [max_eq_right he.le, min_eq_left (by norm_num)]
  obtain ⟨hn0, hn1⟩ := abs_le.1 hn
  have hnu : nu ≤ 0 := by
    by_contra h
    push Not at h
    nlinarith
  obtain ⟨m, -, h2⟩ := flat_law mu hk00 hk1 hn (d := 2 / 10 ^ 6) henv fun x => by
    have h := ratio_le hk00.le hn x
    have h3 : -kappa + kappa * (1 + nu) ^ 2 ≤ kappa - kappa * (1 + nu) ^ 2 := by nlinarith
    rw [max_eq_right h3] at h
    refine le_trans ?_ (add_le_add_left (le_max_right _ _) _)
    have h4 := neg_one_le_cos x
    have h5 : 0 ≤ kappa * (1 + nu) ^ 2 := by positivity
    nlinarith
  have hpdf := fun p (hp : RegularAngle p) => vmftPdfMethod_eq guess hm0 hm1 (lt_trans (by norm_num) hk0) hk1 hn hp
  obtain ⟨g1, -, -⟩ := vmftGrid_spec hk00.le hk1 hn
  have ht : ∀ p, RegularAngle p → t p = flatG kappa nu (vmftGridSize kappa nu) (p - mu) := fun p hp => by
    show (vmftPdfMethod guess p s).getD 0 = _
    rw [hpdf p hp]; rfl
  refine ⟨exp (-m), exp_pos _, fun p hp => ?_⟩
  rw [ht p hp]
  exact ⟨flatG_pos (by omega) _ _ _, h2 p⟩

/-- C102 for `mu = 1`, `kappa = 2`, `nu = -1`. -/
example : ∃ c, 0 < c ∧ ∀ p, RegularAngle p → exp (1 / 10 ^ 6 * cos (p - 1)) / (2 * π * besselI 0 (1 / 10 ^ 6)) *
    volume.real {u : ℝ | 0 < u ∧ u < 1 ∧ vmftTrial ⟨1, 2, -1⟩ p u ≠ none} ≤ c * (vmftPdfMethod id p ⟨1, 2, -1⟩).getD 0 := by
  obtain ⟨c, h0, h⟩ := C102_flat_low id 1 2 (-1) (by norm_num) (by linarith [pi_gt_three]) (by norm_num) (by norm_num) (by norm_num) (by norm_num)
  exact ⟨c, h0, fun p hp => (h p hp).2.2⟩

/-- C102 for `mu = 1`, `kappa = 2`, `nu = -1/2`. -/
example (x : ℝ) : (∫ p in (0 : ℝ)..x, exp (1 / 2 * cos (p - 1)) / (2 * π * besselI 0 (1 / 2)) *
      volume.real {u : ℝ | 0 < u ∧ u < 1 ∧ vmftTrial ⟨1, 2, -1 / 2⟩ p u ≠ none}) /
      (∫ p in (0 : ℝ)..(2 * π), exp (1 / 2 * cos (p - 1)) / (2 * π * besselI 0 (1 / 2)) *
        volume.real {u : ℝ | 0 < u ∧ u < 1 ∧ vmftTrial ⟨1, 2, -1 / 2⟩ p u ≠ none})
    = (∫ p in (0 : ℝ)..x, flatShape 2 (-1 / 2) (p - 1)) / ∫ p in (0 : ℝ)..(2 * π), flatShape 2 (-1 / 2) (p - 1) := by
  have h := (C102_flat id 1 2 (-1 / 2) (by norm_num) (by linarith [pi_gt_three]) (by norm_num) (by norm_num) (by norm_num [abs_le]) (by norm_num)
    (by norm_num)).2.2 x
  have e : (2 : ℝ) * (1 + -1 / 2) ^ 2 = 1 / 2 := by norm_num
  simp only [e] at h
  exact h

end Verif
