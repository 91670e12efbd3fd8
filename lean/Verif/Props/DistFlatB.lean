import Verif.Props.DistFlat
import Verif.Lemmas.TableQuantile
import Verif.Lemmas.Bessel

/-! # Properties C106 (quantiles) and C108 (sampler) of the flat-topped von Mises distribution -/

set_option autoImplicit false

namespace Verif

open Real MeasureTheory Verif.Spec

/-- **C106.** For concentrations up to 300 the quantile of a probability is an angle of `[0, 2π]` at which `cdf`
is that probability, up to a whole number (0 and 1 being the same place on the circle) and one cell of the
table, or an angle within `1e-12` of `2π`. -/
theorem C106_flat_quantile (guess : ℝ → ℝ) (mu kappa nu : ℝ) (hmu : RegularAngle mu) (hk0 : 1 / 10 ^ 9 < kappa)
    (hk1 : kappa ≤ 300) (hn : |nu| ≤ 1) (q : ℝ) (hq0 : 0 ≤ q) (hq1 : q ≤ 1) (M : ℝ) (hM : vmftPdfMethod guess mu ⟨mu, kappa, nu⟩ = some M) :
    ∃ x, vmftPpfMethod guess q ⟨mu, kappa, nu⟩ = some x ∧ 0 ≤ x ∧ x ≤ 2 * π ∧
      (2 * π - 1 / 10 ^ 12 ≤ x ∨ ∃ c, vmftCdfMethod guess x ⟨mu, kappa, nu⟩ = some c ∧
        ∃ k : ℤ, |c - q - k| ≤ max (2 * π / 512 * M) (1 / 10 ^ 12)) := by
  have hk : 0 ≤ kappa := le_trans (by positivity) hk0.le
  have hk2 : kappa ≤ 1000 := by linarith
  have hm1 := regular_le hmu
  have hp := two_pi_pos
  obtain ⟨g1, -, -⟩ := vmftGrid_spec hk hk2 hn
  have htab := vmftTable_eq hk hk1 hn
  have hcdf := fun x (hx : RegularAngle x) => vmftCdfMethod_eq guess hmu.1 hm1 hk0 hk2 hn hx
  have hppf : ∀ q, 0 < q → q < 1 → vmftPpfMethod guess q ⟨mu, kappa, nu⟩ = some (vmftPpf guess q ⟨mu, kappa, nu⟩) := by
    intro q h0 h1
    unfold vmftPpfMethod distPpf
    rw [if_neg (not_not.2 (vmft_arg guess hmu.1 hm1 hk hk2 hn)), if_neg h0.ne', if_neg h1.ne, if_pos ⟨h0, h1⟩]
    rfl
  rw [vmftPdfMethod_eq guess hmu.1 hm1 hk0 hk2 hn hmu, sub_self] at hM
  have hM' := Option.some.inj hM
  rcases hq0.lt_or_eq with h0 | h0
  · rcases hq1.lt_or_eq with h1 | h1
    · rw [hppf q h0 h1]
      unfold vmftPpf
      simp only
      rw [if_neg (by unfold vmftKappaTol; linarith)]
      have hN : 0 < vmftGridSize kappa nu := by omega
      generalize vmftGridSize kappa nu = N at *
      have hsum := flatG_sum hN kappa nu
      have hpos : ∀ j, j ≤ N → 0 < (fun j => flatG kappa nu N (tabGrid N j)) j := fun j _ => flatG_pos hN _ _ _
      have hinc : Increasing N (tabCumul N (vmftTable kappa nu N)) := by
        rw [htab]; exact tabCumul_increasing hN hpos hsum.le
      have hB : ∀ i, i < N → tabCumul N (vmftTable kappa nu N) (i + 1) - tabCumul N (vmftTable kappa nu N) i ≤ 2 * π / 512 * M := by
        intro i hi
        have e1 : ∀ i, i ≤ N → tabCumul N (vmftTable kappa nu N) i = tabTrap N (fun j => flatG kappa nu N (tabGrid N j)) i := by
          intro i hi
          rw [htab]
          rcases Nat.eq_or_lt_of_le hi with h | h
          · rw [h, tabCumul_last, hsum]
          · exact tabCumul_eq hN hpos hsum.le h
        rw [e1 _ hi, e1 _ hi.le, tabTrap_succ]
        have f1 := flatG_le_max hk nu hN (tabGrid N i)
        have f2 := flatG_le_max hk nu hN (tabGrid N (i + 1))
        have hNR : (512 : ℝ) ≤ N := by exact_mod_cast g1
        have h3 : 2 * π / N ≤ 2 * π / 512 := div_le_div_of_nonneg_left (by positivity) (by norm_num) hNR
        have hM0 : 0 < M := by rw [← hM']; exact flatG_pos hN _ _ _
        have h4 : 1 / 2 * (flatG kappa nu N (tabGrid N i) + flatG kappa nu N (tabGrid N (i + 1))) ≤ M := by rw [← hM']; linarith
        have h5 : 0 < 2 * π / N := by positivity
        calc _ = 1 / 2 * (flatG kappa nu N (tabGrid N i) + flatG kappa nu N (tabGrid N (i + 1))) * (2 * π / N) := by ring
          _ ≤ M * (2 * π / 512) := mul_le_mul h4 h3 h5.le hM0.le
          _ = _ := by ring
      obtain ⟨a, b, c⟩ := tabPpf_spec hN hinc (fun phi => exp (vmftLogKernel kappa nu phi + vmftLogNorm kappa nu N)) guess 50 mu (q := q) hB
      refine ⟨_, rfl, a, b, ?_⟩
      generalize tabPpf N _ _ guess 50 mu q = x at *
      by_cases hx : 2 * π - 1 / 10 ^ 12 ≤ x
      · exact Or.inl hx
      · obtain ⟨k, hk⟩ := c.resolve_left hx
        refine Or.inr ⟨_, hcdf x ⟨a, Or.inl ?_⟩, k, hk⟩
        have : (1 : ℝ) / 10 ^ 14 < 1 / 10 ^ 12 := by norm_num
        linarith
    · refine ⟨2 * π, ?_, hp.le, le_refl _, Or.inl (by linarith [show (0 : ℝ) < 1 / 10 ^ 12 by positivity])⟩
      unfold vmftPpfMethod distPpf
      rw [if_neg (not_not.2 (vmft_arg guess hmu.1 hm1 hk hk2 hn)), if_neg h0.ne', if_pos h1]
  · refine ⟨0, ?_, le_refl _, hp.le, Or.inr ⟨0, ?_, 0, ?_⟩⟩
    · unfold vmftPpfMethod distPpf
      rw [if_neg (not_not.2 (vmft_arg guess hmu.1 hm1 hk hk2 hn)), if_pos h0.symm]
    · rw [hcdf 0 ⟨le_refl _, Or.inl (by linarith [pi_gt_three, show (1 : ℝ) / 10 ^ 14 ≤ 1 by norm_num])⟩, tabCdf_zero]
    · rw [← h0]
      refine le_trans ?_ (le_max_right _ _)
      norm_num

example : ∃ x, vmftPpfMethod id (1 / 3) ⟨1, 2, -1 / 2⟩ = some x ∧ 0 ≤ x ∧ x ≤ 2 * π := by
  have h1 : RegularAngle 1 := ⟨by norm_num, Or.inl (by linarith [pi_gt_three, show (1 : ℝ) / 10 ^ 14 ≤ 1 by norm_num])⟩
  obtain ⟨x, a, b, c, -⟩ := C106_flat_quantile id 1 2 (-1 / 2) h1 (by norm_num) (by norm_num) (by norm_num) (1 / 3) (by norm_num) (by norm_num) _
    (vmftPdfMethod_eq id h1.1 (regular_le h1) (by norm_num) (by norm_num) (by norm_num) h1)
  exact ⟨x, a, b, c⟩

/-! ## C108: the sampler -/

private lemma accept_measure (r : ℝ) : volume.real {u : ℝ | 0 < u ∧ u < 1 ∧ log u ≤ r} = min 1 (exp r) := by
  have hr := exp_pos r
  rcases le_or_gt 1 (exp r) with h | h
  · have e : {u : ℝ | 0 < u ∧ u < 1 ∧ log u ≤ r} = Set.Ioo 0 1 := by
      ext u
      refine ⟨fun ⟨a, b, _⟩ => ⟨a, b⟩, fun ⟨a, b⟩ => ⟨a, b, ?_⟩⟩
      rw [log_le_iff_le_exp a]; linarith
    rw [e, min_eq_left h]
    simp [Measure.real]
  · have e : {u : ℝ | 0 < u ∧ u < 1 ∧ log u ≤ r} = Set.Ioc 0 (exp r) := by
      ext u
      refine ⟨fun ⟨a, b, c⟩ => ⟨a, (log_le_iff_le_exp a).1 c⟩, fun ⟨a, b⟩ => ⟨a, by linarith, (log_le_iff_le_exp a).2 b⟩⟩
    rw [e, min_eq_right h.le]
    simp [Measure.real, hr.le]

theorem bessel_lower {k : ℝ} (hk : 0 ≤ k) : 2 * exp (k - 1 / 2) / √(k + 1) ≤ 2 * π * besselI 0 k := by
  have h := flatZ_ge hk 0
  have e1 : flatA k 0 = √(k + 1) := by unfold flatA; simp
  have e2 : flatZ k 0 = 2 * π * besselI 0 k := by
    rw [flatZ_symm]
    have hi : ∀ a b, IntervalIntegrable (flatKernel k 0) volume a b := fun a b => (flatKernel_continuous k 0).intervalIntegrable a b
    rw [← intervalIntegral.integral_add_adjacent_intervals (hi (-π) 0) (hi 0 π)]
    have e3 : ∫ t in (-π)..0, flatKernel k 0 t = ∫ t in (0 : ℝ)..π, flatKernel k 0 t := by
      have := intervalIntegral.integral_comp_neg (a := -π) (b := 0) (flatKernel k 0)
      rw [neg_zero, neg_neg] at this
      rw [← this]
      exact intervalIntegral.integral_congr fun t _ => (flatKernel_even k 0 t).symm
    rw [e3]
    unfold besselI flatKernel
    have hpi := pi_pos.ne'
    simp only [Nat.cast_zero, zero_mul, cos_zero, mul_one, add_zero]
    field_simp
    ring
  rw [e1, e2] at h
  exact h

/-- **C108.** The sampler of the flat-topped von Mises distribution rejects practically everything when `nu` is
positive. Write `k = kappa (1 + nu)²` for the concentration of the von Mises proposals. For a proposal `p` the
share of uniform draws that lead to acceptance is a continuous function `a p`, and its average over the proposals
is at most `4 √(k + 1) exp(2 kappa - 2 k + 1/2)`. -/
theorem C108_flat_acceptance (mu kappa nu : ℝ) (hk0 : 0 < kappa) (hk1 : kappa ≤ 1000) (hn : |nu| ≤ 1)
    (he0 : 1 / 10 ^ 6 ≤ kappa * (1 + nu) ^ 2) (he1 : kappa * (1 + nu) ^ 2 ≤ 1000) :
    let k := kappa * (1 + nu) ^ 2
    ∃ a : ℝ → ℝ, Continuous a ∧
      (∀ p, volume.real {u : ℝ | 0 < u ∧ u < 1 ∧ vmftTrial ⟨mu, kappa, nu⟩ p u ≠ none} = a p) ∧
      ∫ p in (0 : ℝ)..(2 * π), exp (k * cos (p - mu)) / (2 * π * besselI 0 k) * a p ≤ 4 * √(k + 1) * exp (2 * kappa - 2 * k + 1 / 2) := by
  intro k
  have hkpos : 0 < k := lt_of_lt_of_le (by positivity) he0
  have henv : vmftEnvKappa kappa nu = k := by
    unfold vmftEnvKappa clip vmftKappaUpper
    rw [max_eq_left he0, min_eq_left (by linarith)]
  obtain ⟨Z, hZ⟩ : ∃ Z, Z = 2 * π * besselI 0 k := ⟨_, rfl⟩
  have hI := besselI_zero_pos k
  have hZ0 : 0 < Z := by rw [hZ]; positivity
  have hlz : vmftLogEnvNorm k = log Z := by
    unfold vmftLogEnvNorm
    rw [log_mul (exp_pos _).ne' hI.ne', log_exp, hZ, log_mul (by positivity) hI.ne']
    ring
  obtain ⟨g1, -, -⟩ := vmftGrid_spec hk0.le hk1 hn
  have htab := vmftTable_floor hk0.le hk1 hn
  obtain ⟨N, hNd⟩ : ∃ N, N = vmftGridSize kappa nu := ⟨_, rfl⟩
  rw [← hNd] at g1 htab
  have hN : 0 < N := by omega
  obtain ⟨m, hm⟩ : ∃ m, m = vmftLogMultiplier kappa nu := ⟨_, rfl⟩
  -- the multiplier is at least the ratio of the densities opposite the mean
  have hmult : flatG kappa nu N π * exp k * Z ≤ exp m := by
    rw [hm]
    unfold vmftLogMultiplier
    simp only
    rw [henv, hlz, exp_log (by positivity)]
    subst hNd
    have h0 : log (vmftTable kappa nu (vmftGridSize kappa nu) 0) - (k * cos (tabGrid (vmftGridSize kappa nu) 0) - log Z)
        ≤ (Finset.range (vmftGridSize kappa nu + 1)).sup' ⟨0, by simp⟩ fun j => log (vmftTable kappa nu (vmftGridSize kappa nu) j) - (k * cos (tabGrid (vmftGridSize kappa nu) j) - log Z) :=
      Finset.le_sup' (fun j => log (vmftTable kappa nu (vmftGridSize kappa nu) j) - (k * cos (tabGrid (vmftGridSize kappa nu) j) - log Z)) (by simp)
    have h1 := exp_le_exp.2 h0
    have ht0 : vmftTable kappa nu (vmftGridSize kappa nu) 0 = max (flatG kappa nu (vmftGridSize kappa nu) (-π)) (exp (-700)) := by
      rw [htab]
      show max (flatG kappa nu _ (tabGrid _ 0)) _ = _
      rw [tabGrid_zero]
    rw [tabGrid_zero, cos_neg, cos_pi, ht0, exp_sub, exp_log (lt_max_of_lt_right (exp_pos _)), exp_sub, exp_log hZ0] at h1
    have h2 : flatG kappa nu (vmftGridSize kappa nu) π ≤ max (flatG kappa nu (vmftGridSize kappa nu) (-π)) (exp (-700)) := by
      refine le_trans (le_of_eq ?_) (le_max_left _ _)
      unfold flatG; rw [flatKernel_even]
    have h3 : max (flatG kappa nu (vmftGridSize kappa nu) (-π)) (exp (-700)) / (exp (k * -1) / Z) = max (flatG kappa nu (vmftGridSize kappa nu) (-π)) (exp (-700)) * exp k * Z := by
      rw [mul_neg_one, exp_neg k]
      rw [div_eq_mul_inv, inv_div, div_inv_eq_mul]
      ring
    rw [h3] at h1
    have h4 : flatG kappa nu (vmftGridSize kappa nu) π * exp k * Z ≤ max (flatG kappa nu (vmftGridSize kappa nu) (-π)) (exp (-700)) * exp k * Z := by gcongr
    refine (h4.trans h1).trans ?_
    refine le_mul_of_one_le_right (exp_pos _).le ?_
    norm_num
  have hcosp : Function.Periodic (fun t => cos t) (2 * π) := cos_periodic
  have hGp : Function.Periodic (flatG kappa nu N) (2 * π) := fun t => by unfold flatG; rw [flatKernel_periodic]
  have hrel : ∀ {g : ℝ → ℝ}, Function.Periodic g (2 * π) → ∀ p, g (tabRel p (pymod mu (2 * π))) = g (p - mu) := by
    intro g hg p
    rw [periodic_tabRel hg]
    obtain ⟨j, hj⟩ := pymod_cong mu (2 * π)
    rw [hj, show p - (mu + j * (2 * π)) = p - mu - j * (2 * π) by ring]
    exact hg.sub_int_mul_eq j
  obtain ⟨b, hb⟩ : ∃ b : ℝ → ℝ, b = fun p => flatG kappa nu N (p - mu) * (Z / exp (k * cos (p - mu))) / exp m := ⟨_, rfl⟩
  have hGc := flatG_continuous kappa nu N
  have hbc : Continuous b := by
    rw [hb]
    refine Continuous.div_const (Continuous.mul (hGc.comp (by fun_prop)) (Continuous.div continuous_const (by fun_prop) fun p => (exp_pos _).ne')) _
  refine ⟨fun p => min 1 (b p), continuous_const.min hbc, fun p => ?_, ?_⟩
  · have e : ∀ u, vmftTrial ⟨mu, kappa, nu⟩ p u ≠ none ↔ log u ≤ log (b p) := by
      intro u
      unfold vmftTrial
      simp only
      rw [henv, hlz, ← hm, ← hNd]
      have e1 : vmftLogKernel kappa nu (tabRel p (pymod mu (2 * π))) + vmftLogNorm kappa nu N = log (flatG kappa nu N (p - mu)) := by
        rw [← hrel hGp p, ← flatG_eq hN, log_exp]
      have e2 : cos (tabRel p (pymod mu (2 * π))) = cos (p - mu) := hrel hcosp p
      have e3 : log (b p) = log (flatG kappa nu N (p - mu)) - (k * cos (p - mu) - log Z) - m := by
        have hg := flatG_pos hN kappa nu (p - mu)
        rw [hb]
        simp only
        rw [log_div (by positivity) (exp_pos _).ne', log_mul hg.ne' (by positivity), log_div hZ0.ne' (exp_pos _).ne', log_exp, log_exp]
        ring
      rw [e1, e2, ← e3]
      split_ifs with h <;> simp [h]
    simp only [e]
    rw [accept_measure, exp_log]
    rw [hb]
    have := flatG_pos hN kappa nu (p - mu)
    positivity
  · have hi1 : IntervalIntegrable (fun p => exp (k * cos (p - mu)) / (2 * π * besselI 0 k) * min 1 (b p)) volume 0 (2 * π) := by
      refine Continuous.intervalIntegrable ?_ _ _
      exact ((by fun_prop : Continuous fun p => exp (k * cos (p - mu))).div_const _).mul (continuous_const.min hbc)
    have hi2 : IntervalIntegrable (fun p => flatKernel kappa nu (p - mu) / flatZN kappa nu N / exp m) volume 0 (2 * π) := by
      refine Continuous.intervalIntegrable ?_ _ _
      exact (hGc.comp (by fun_prop : Continuous fun p : ℝ => p - mu)).div_const _
    have hle : ∀ p ∈ Set.Icc (0 : ℝ) (2 * π), exp (k * cos (p - mu)) / (2 * π * besselI 0 k) * min 1 (b p)
        ≤ flatKernel kappa nu (p - mu) / flatZN kappa nu N / exp m := by
      intro p _
      rw [← hZ]
      refine (mul_le_mul_of_nonneg_left (min_le_right _ _) (by positivity)).trans (le_of_eq ?_)
      rw [hb]
      simp only
      unfold flatG
      have := (exp_pos (k * cos (p - mu))).ne'
      have := hZ0.ne'
      field_simp
    refine (intervalIntegral.integral_mono_on two_pi_pos.le hi1 hi2 hle).trans ?_
    rw [intervalIntegral.integral_div, intervalIntegral.integral_div, flatKernel_shift_integral]
    have hZN := flatZN_pos hN kappa nu
    have hZle : flatZ kappa nu ≤ 2 * π * exp kappa := by
      unfold flatZ
      have := intervalIntegral.integral_mono_on (μ := volume) two_pi_pos.le ((flatKernel_continuous kappa nu).intervalIntegrable 0 (2 * π))
        (continuous_const.intervalIntegrable (μ := volume) 0 (2 * π)) fun t _ => flatKernel_le hk0.le nu t
      rw [intervalIntegral.integral_const, smul_eq_mul, sub_zero] at this
      exact this
    have hGpi : flatG kappa nu N π = exp (-kappa) / flatZN kappa nu N := by
      unfold flatG flatKernel
      rw [sin_pi, mul_zero, add_zero, cos_pi, mul_neg_one]
    rw [hGpi] at hmult
    have hs : 0 < √(k + 1) := sqrt_pos.2 (by linarith)
    have hZl : 2 * exp (k - 1 / 2) / √(k + 1) ≤ Z := by rw [hZ]; exact bessel_lower hkpos.le
    have hpi := pi_lt_four
    have step1 : flatZ kappa nu / flatZN kappa nu N / exp m ≤ 2 * π * exp kappa / flatZN kappa nu N / (exp (-kappa) / flatZN kappa nu N * exp k * (2 * exp (k - 1 / 2) / √(k + 1))) := by
      gcongr
      refine le_trans ?_ hmult
      gcongr
    refine step1.trans ?_
    have step2 : 2 * π * exp kappa / flatZN kappa nu N / (exp (-kappa) / flatZN kappa nu N * exp k * (2 * exp (k - 1 / 2) / √(k + 1)))
        = π * √(k + 1) * exp (2 * kappa - 2 * k + 1 / 2) := by
      have e : exp (2 * kappa - 2 * k + 1 / 2) = exp kappa / (exp (-kappa) * exp k * exp (k - 1 / 2)) := by
        rw [← exp_add, ← exp_add, ← exp_sub]
        congr 1; ring
      rw [e]
      have h1 := (exp_pos (-kappa)).ne'
      have h2 := (exp_pos k).ne'
      have h3 := (exp_pos (k - 1 / 2)).ne'
      have h4 := hZN.ne'
      have h5 := hs.ne'
      field_simp
    rw [step2]
    gcongr

/-- C108 for `kappa = 10`, `nu = 1`: at most one proposal in `e^55` is accepted on average. -/
example : ∃ a : ℝ → ℝ, Continuous a ∧
    (∀ p, volume.real {u : ℝ | 0 < u ∧ u < 1 ∧ vmftTrial ⟨1, 10, 1⟩ p u ≠ none} = a p) ∧
    ∫ p in (0 : ℝ)..(2 * π), exp (40 * cos (p - 1)) / (2 * π * besselI 0 40) * a p ≤ exp (-55) := by
  obtain ⟨a, h1, h2, h3⟩ := C108_flat_acceptance 1 10 1 (by norm_num) (by norm_num) (by norm_num) (by norm_num) (by norm_num)
  rw [show (10 : ℝ) * (1 + 1) ^ 2 = 40 by norm_num] at h3
  refine ⟨a, h1, h2, h3.trans ?_⟩
  have hs : √((40 : ℝ) + 1) ≤ 7 := sqrt_le_iff.2 ⟨by norm_num, by norm_num⟩
  have he : (32 : ℝ) ≤ exp (9 / 2) := by
    have h := add_one_le_exp (1 / 2 : ℝ)
    have e : exp (9 / 2) = exp (1 / 2) ^ 9 := by rw [← exp_nat_mul]; norm_num
    rw [e]
    refine le_trans ?_ (pow_le_pow_left₀ (by norm_num) h 9)
    norm_num
  have e : exp (2 * 10 - 2 * 40 + 1 / 2) = exp (-55) * exp (-(9 / 2)) := by rw [← exp_add]; norm_num
  rw [e, exp_neg (9 / 2)]
  have hp := exp_pos (-55 : ℝ)
  have h5 : (exp (9 / 2))⁻¹ ≤ 1 / 32 := by rw [inv_eq_one_div]; exact one_div_le_one_div_of_le (by norm_num) he
  calc 4 * √(40 + 1) * (exp (-55) * (exp (9 / 2))⁻¹) ≤ 4 * 7 * (exp (-55) * (1 / 32)) := by gcongr
    _ ≤ exp (-55) := by linarith

end Verif
