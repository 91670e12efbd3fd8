import Verif.Lemmas.FlatFloor
import Verif.Props.DistJonesPewsey
import Verif.Spec.Distribution
import Verif.Spec.Families

/-! # Properties C81, C106 and C107 for the flat-topped von Mises distribution -/

set_option autoImplicit false

namespace Verif

open Real MeasureTheory Verif.Spec

theorem vmft_arg (guess : ℝ → ℝ) {mu kappa nu : ℝ} (hm0 : 0 ≤ mu) (hm1 : mu ≤ 2 * π) (hk0 : 0 ≤ kappa) (hk1 : kappa ≤ 1000)
    (hn : |nu| ≤ 1) : (vonmisesFlattopped guess).argcheck ⟨mu, kappa, nu⟩ := by
  refine ⟨⟨hm0, hm1⟩, ⟨hk0, ?_⟩, (abs_le.1 hn).1, (abs_le.1 hn).2⟩
  show kappa ≤ 10 ^ 3
  linarith

theorem vmft_kappa_clip {kappa : ℝ} (hk0 : 0 ≤ kappa) (hk1 : kappa ≤ 1000) : clip kappa 0 vmftKappaUpper = kappa := by
  unfold clip vmftKappaUpper
  rw [max_eq_left hk0, min_eq_left (by linarith)]

private lemma vmftPdf_eq {mu kappa nu : ℝ} (hk0 : 1 / 10 ^ 9 < kappa) (hk1 : kappa ≤ 1000) (hn : |nu| ≤ 1) (x : ℝ) :
    vmftPdf x ⟨mu, kappa, nu⟩ = flatG kappa nu (vmftGridSize kappa nu) (x - mu) := by
  have hk : 0 ≤ kappa := le_trans (by positivity) hk0.le
  unfold vmftPdf
  simp only [vmft_kappa_clip hk hk1]
  rw [if_neg (by unfold vmftKappaTol; linarith)]
  obtain ⟨g1, -, -⟩ := vmftGrid_spec hk hk1 hn
  rw [flatG_eq (by omega)]
  refine periodic_tabRel (g := flatG kappa nu (vmftGridSize kappa nu)) (fun t => ?_) x mu
  unfold flatG
  rw [flatKernel_periodic]

theorem vmftPdfMethod_eq (guess : ℝ → ℝ) {mu kappa nu : ℝ} (hm0 : 0 ≤ mu) (hm1 : mu ≤ 2 * π) (hk0 : 1 / 10 ^ 9 < kappa)
    (hk1 : kappa ≤ 1000) (hn : |nu| ≤ 1) {x : ℝ} (hx : RegularAngle x) :
    vmftPdfMethod guess x ⟨mu, kappa, nu⟩ = some (flatG kappa nu (vmftGridSize kappa nu) (x - mu)) := by
  have hk : 0 ≤ kappa := le_trans (by positivity) hk0.le
  unfold vmftPdfMethod
  simp only [vmft_kappa_clip hk hk1]
  rw [distPdf_regular _ (vmft_arg guess hm0 hm1 hk hk1 hn) hx]
  show some (vmftPdf x _) = _
  rw [vmftPdf_eq hk0 hk1 hn]

theorem vmftPdfMethod_uniform (guess : ℝ → ℝ) {mu kappa nu : ℝ} (hm0 : 0 ≤ mu) (hm1 : mu ≤ 2 * π) (hk0 : 0 ≤ kappa)
    (hk1 : kappa ≤ 1 / 10 ^ 9) (hn : |nu| ≤ 1) {x : ℝ} (hx : RegularAngle x) :
    vmftPdfMethod guess x ⟨mu, kappa, nu⟩ = some (1 / (2 * π)) := by
  have hk : kappa ≤ 1000 := hk1.trans (by norm_num)
  unfold vmftPdfMethod
  simp only [vmft_kappa_clip hk0 hk]
  rw [distPdf_regular _ (vmft_arg guess hm0 hm1 hk0 hk hn) hx]
  show some (vmftPdf x _) = _
  unfold vmftPdf
  simp only [vmft_kappa_clip hk0 hk]
  rw [if_pos (show kappa ≤ vmftKappaTol from hk1)]

theorem flatG_continuous (kappa nu : ℝ) (N : ℕ) : Continuous (flatG kappa nu N) := (flatKernel_continuous kappa nu).div_const _

private lemma flatG_mass {kappa nu : ℝ} (hk0 : 0 ≤ kappa) (hk1 : kappa ≤ 1000) (hn : |nu| ≤ 1) :
    |flatZ kappa nu / flatZN kappa nu (vmftGridSize kappa nu) - 1| ≤ 1 / 10 ^ 12 := by
  obtain ⟨g1, g2, -⟩ := vmftGrid_spec hk0 hk1 hn
  have h := flatZN_accuracy hk0 hk1 hn g1 g2
  have hZ := flatZ_pos hk0 nu
  have hZN := flatZN_pos (N := vmftGridSize kappa nu) (by omega) kappa nu
  rw [div_sub_one hZN.ne', abs_div, abs_of_pos hZN, div_le_iff₀ hZN, abs_sub_comm]
  have := (abs_le.1 h).1
  refine h.trans ?_
  linarith

theorem flatKernel_shift_integral (kappa nu mu : ℝ) : ∫ x in (0 : ℝ)..(2 * π), flatKernel kappa nu (x - mu) = flatZ kappa nu := by
  rw [intervalIntegral.integral_comp_sub_right]
  have := (flatKernel_periodic kappa nu).intervalIntegral_add_eq (0 - mu) 0
  rw [zero_add] at this
  rw [show (2 : ℝ) * π - mu = 0 - mu + 2 * π by ring, this]
  rfl

/-- **C106.** For all admissible parameters the flat-topped von Mises density is positive and continuous,
integrates to 1 up to `1e-12`, is symmetric about `mu`, is largest there, and is the exact normalised density
up to a relative error of `1e-12` (of `3e-9` for concentrations below `1e-9`, where the library returns the
uniform density). -/
theorem C106_flat_density (guess : ℝ → ℝ) (mu kappa nu : ℝ) (hm0 : 0 ≤ mu) (hm1 : mu ≤ 2 * π) (hk0 : 0 ≤ kappa)
    (hk1 : kappa ≤ 1000) (hn : |nu| ≤ 1) :
    ∃ f : ℝ → ℝ, (∀ x, RegularAngle x → vmftPdfMethod guess x ⟨mu, kappa, nu⟩ = some (f x)) ∧
      (∀ x, 0 < f x) ∧ Continuous f ∧ |(∫ x in (0 : ℝ)..(2 * π), f x) - 1| ≤ 1 / 10 ^ 12 ∧
      (∀ t, f (mu - t) = f (mu + t)) ∧ (∀ x, f x ≤ f mu) ∧
      ∀ x, |f x - flatShape kappa nu (x - mu) / ∫ t in (0 : ℝ)..(2 * π), flatShape kappa nu t|
        ≤ (if 1 / 10 ^ 9 < kappa then 1 / 10 ^ 12 else 3 / 10 ^ 9)
          * (flatShape kappa nu (x - mu) / ∫ t in (0 : ℝ)..(2 * π), flatShape kappa nu t) := by
  have hZ := flatZ_pos hk0 nu
  have hshape : (∫ t in (0 : ℝ)..(2 * π), flatShape kappa nu t) = flatZ kappa nu := rfl
  have hk : ∀ t, flatShape kappa nu t = flatKernel kappa nu t := fun t => rfl
  rw [hshape]
  by_cases hc : 1 / 10 ^ 9 < kappa
  · obtain ⟨g1, g2, -⟩ := vmftGrid_spec hk0 hk1 hn
    obtain ⟨N, hNd⟩ : ∃ N, N = vmftGridSize kappa nu := ⟨_, rfl⟩
    have hmass := flatG_mass hk0 hk1 hn
    rw [← hNd] at g1 g2 hmass
    have hN : 0 < N := by omega
    have hZN := flatZN_pos hN kappa nu
    refine ⟨fun x => flatG kappa nu N (x - mu), fun x hx => by rw [hNd]; exact vmftPdfMethod_eq guess hm0 hm1 hc hk1 hn hx,
      fun x => flatG_pos hN _ _ _, (flatG_continuous _ _ _).comp (by fun_prop), ?_, fun t => ?_, fun x => ?_, fun x => ?_⟩
    · unfold flatG
      rw [intervalIntegral.integral_div, flatKernel_shift_integral]
      exact hmass
    · show flatG _ _ _ _ = flatG _ _ _ _
      unfold flatG
      rw [show mu - t - mu = -t by ring, show mu + t - mu = t by ring, flatKernel_even]
    · show flatG _ _ _ _ ≤ flatG _ _ _ _
      rw [sub_self]
      exact flatG_le_max hk0 nu hN _
    · rw [if_pos hc, hk]
      have hr : flatG kappa nu N (x - mu) - flatKernel kappa nu (x - mu) / flatZ kappa nu
          = flatKernel kappa nu (x - mu) / flatZ kappa nu * (flatZ kappa nu / flatZN kappa nu N - 1) := by
        unfold flatG
        field_simp
      have hp := div_pos (flatKernel_pos kappa nu (x - mu)) hZ
      rw [hr, abs_mul, abs_of_pos hp, mul_comm]
      exact mul_le_mul_of_nonneg_right hmass hp.le
  · push Not at hc
    refine ⟨fun _ => 1 / (2 * π), fun x hx => vmftPdfMethod_uniform guess hm0 hm1 hk0 hc hn hx, fun x => by positivity, continuous_const, ?_,
      fun t => rfl, fun x => le_refl _, fun x => ?_⟩
    · rw [intervalIntegral.integral_const, smul_eq_mul, sub_zero, mul_one_div, div_self two_pi_pos.ne', sub_self, abs_zero]
      positivity
    · rw [if_neg (not_lt.2 hc), hk]
      have hp := flatKernel_pos kappa nu (x - mu)
      have h1 := flatKernel_le hk0 nu (x - mu)
      have h2 := flatKernel_ge hk0 nu (x - mu)
      have hcont := flatKernel_continuous kappa nu
      have hZ1 : flatZ kappa nu ≤ 2 * π * exp kappa := by
        have := intervalIntegral.integral_mono_on (μ := volume) two_pi_pos.le (hcont.intervalIntegrable 0 (2 * π))
          (continuous_const.intervalIntegrable (μ := volume) 0 (2 * π)) fun t _ => flatKernel_le hk0 nu t
        rw [intervalIntegral.integral_const, smul_eq_mul, sub_zero] at this
        exact this
      have hZ2 : 2 * π * exp (-kappa) ≤ flatZ kappa nu := by
        have := intervalIntegral.integral_mono_on (μ := volume) two_pi_pos.le
          (continuous_const.intervalIntegrable (μ := volume) 0 (2 * π)) (hcont.intervalIntegrable 0 (2 * π)) fun t _ => flatKernel_ge hk0 nu t
        rw [intervalIntegral.integral_const, smul_eq_mul, sub_zero] at this
        exact this
      obtain ⟨K, hK⟩ : ∃ K, K = flatKernel kappa nu (x - mu) := ⟨_, rfl⟩
      rw [← hK] at hp h1 h2 ⊢
      have e1 := abs_exp_sub_one_sub_id_le (x := kappa) (by rw [abs_of_nonneg hk0]; linarith [show (1 : ℝ) / 10 ^ 9 ≤ 1 by norm_num])
      have e2 := one_sub_le_exp_neg kappa
      have hu : exp kappa ≤ 1 + 11 / 10 * (1 / 10 ^ 9) := by
        have := (abs_le.1 e1).2
        nlinarith
      have hl : 1 - 1 / 10 ^ 9 ≤ exp (-kappa) := by linarith
      rw [div_sub_div _ _ two_pi_pos.ne' hZ.ne', abs_div, abs_of_pos (by positivity : 0 < 2 * π * flatZ kappa nu), ← mul_div_assoc,
        div_le_div_iff₀ (by positivity) hZ]
      have hpi := two_pi_pos
      have hb : |1 * flatZ kappa nu - 2 * π * K| ≤ 2 * π * (22 / 10 * (1 / 10 ^ 9)) := by
        rw [abs_le]
        constructor <;> nlinarith
      have hKl : 1 - 1 / 10 ^ 9 ≤ K := by linarith
      calc |1 * flatZ kappa nu - 2 * π * K| * flatZ kappa nu ≤ 2 * π * (22 / 10 * (1 / 10 ^ 9)) * flatZ kappa nu :=
            mul_le_mul_of_nonneg_right hb hZ.le
        _ ≤ 3 / 10 ^ 9 * K * (2 * π * flatZ kappa nu) := by
            have : (22 : ℝ) / 10 * (1 / 10 ^ 9) ≤ 3 / 10 ^ 9 * K := by linarith
            have h3 := mul_le_mul_of_nonneg_right this (by positivity : 0 ≤ 2 * π * flatZ kappa nu)
            linarith

/-- C106 for a concrete flat-topped member. -/
example : ∃ f : ℝ → ℝ, (∀ x, RegularAngle x → vmftPdfMethod id x ⟨1, 2, -1 / 2⟩ = some (f x)) ∧
    |(∫ x in (0 : ℝ)..(2 * π), f x) - 1| ≤ 1 / 10 ^ 12 := by
  obtain ⟨f, h1, -, -, h2, -⟩ := C106_flat_density id 1 2 (-1 / 2) (by norm_num) (by linarith [pi_gt_three]) (by norm_num) (by norm_num)
    (by norm_num)
  exact ⟨f, h1, h2⟩

/-! ## C81: the tabulated distribution function -/

theorem vmftCdfMethod_eq (guess : ℝ → ℝ) {mu kappa nu : ℝ} (hm0 : 0 ≤ mu) (hm1 : mu ≤ 2 * π) (hk0 : 1 / 10 ^ 9 < kappa)
    (hk1 : kappa ≤ 1000) (hn : |nu| ≤ 1) {x : ℝ} (hx : RegularAngle x) :
    vmftCdfMethod guess x ⟨mu, kappa, nu⟩
      = some (tabCdf (vmftGridSize kappa nu) (vmftTable kappa nu (vmftGridSize kappa nu)) mu x) := by
  have hk : 0 ≤ kappa := le_trans (by positivity) hk0.le
  unfold vmftCdfMethod distCdf
  rw [if_neg (not_not.2 (vmft_arg guess hm0 hm1 hk hk1 hn)), regular_wrap hx]
  split_ifs with c1 c2
  · have : x = 2 * π := le_antisymm (regular_le hx) c1
    rw [this]
    unfold tabCdf
    simp only
    rw [if_pos]
    unfold isclose
    rw [sub_self, abs_zero]
    positivity
  · show some (vmftCdf x _) = _
    unfold vmftCdf
    simp only [vmft_kappa_clip hk hk1, regular_wrap hx]
    rw [if_neg (by unfold vmftKappaTol; linarith)]
  · have : x = 0 := le_antisymm (not_lt.1 c2) hx.1
    rw [this, tabCdf_zero]

/-- **C81.** For concentrations up to 300 the tabulated distribution function of the flat-topped von Mises
distribution starts at 0, ends at 1, stays in `[0, 1]`, never decreases, and differs from the integral of the
distribution's own density by at most `(κ + 1)(1 + |ν|)² f(mu) / 1000`. -/
theorem C81_flat_cdf (guess : ℝ → ℝ) (mu kappa nu : ℝ) (hm0 : 0 ≤ mu) (hm1 : mu ≤ 2 * π) (hk0 : 1 / 10 ^ 9 < kappa)
    (hk1 : kappa ≤ 300) (hn : |nu| ≤ 1) :
    ∃ f F : ℝ → ℝ, (∀ x, RegularAngle x → vmftPdfMethod guess x ⟨mu, kappa, nu⟩ = some (f x)) ∧
      (∀ x, RegularAngle x → vmftCdfMethod guess x ⟨mu, kappa, nu⟩ = some (F x)) ∧
      F 0 = 0 ∧ F (2 * π) = 1 ∧ (∀ x, 0 ≤ F x ∧ F x ≤ 1) ∧ MonotoneOn F (Set.Icc 0 (2 * π)) ∧ Continuous f ∧
      ∀ x, 0 ≤ x → x ≤ 2 * π →
        |F x - ∫ t in (0 : ℝ)..x, f t| ≤ 1 / 1000 * ((kappa + 1) * (1 + |nu|) ^ 2 * f mu) := by
  have hk : 0 ≤ kappa := le_trans (by positivity) hk0.le
  have hk2 : kappa ≤ 1000 := by linarith
  obtain ⟨g1, g2, -⟩ := vmftGrid_spec hk hk2 hn
  have hmass := flatG_mass hk hk2 hn
  have htab := vmftTable_eq hk hk1 hn
  have hpdf := fun x (hx : RegularAngle x) => vmftPdfMethod_eq guess hm0 hm1 hk0 hk2 hn hx
  have hcdf := fun x (hx : RegularAngle x) => vmftCdfMethod_eq guess hm0 hm1 hk0 hk2 hn hx
  generalize vmftGridSize kappa nu = N at *
  have hN : 0 < N := by omega
  have hsum := flatG_sum hN kappa nu
  rw [htab] at hcdf
  obtain ⟨c, hcd⟩ : ∃ c : ℕ → ℝ, c = fun j => flatG kappa nu N (tabGrid N j) := ⟨_, rfl⟩
  have hinc : Increasing N (tabCumul N c) := by
    rw [hcd]
    exact tabCumul_increasing hN (fun j _ => flatG_pos hN _ _ _) hsum.le
  have hend : ∀ x, 2 * π - 1 / 10 ^ 12 ≤ x → x ≤ 2 * π → tabCdf N c mu x = 1 := fun x h0 h1 => by
    unfold tabCdf
    simp only
    rw [if_pos]
    unfold isclose
    rw [abs_le]
    constructor <;> linarith
  have hcont := flatG_continuous kappa nu N
  obtain ⟨M, hMd⟩ : ∃ M, M = flatG kappa nu N 0 := ⟨_, rfl⟩
  have hM0 : 0 < M := by rw [hMd]; exact flatG_pos hN _ _ _
  have hA2 : 1 ≤ flatA kappa nu ^ 2 := one_le_pow₀ (flatA_ge_one hk nu)
  obtain ⟨E, hEd⟩ : ∃ E, E = (2 * π / N) ^ 2 * (M * (2 * flatA kappa nu ^ 2) * π / 6 + 3 / 4 * (M * flatA kappa nu ^ 2)) := ⟨_, rfl⟩
  have hE : ∀ phi, -π ≤ phi → phi ≤ π → |tabH N c phi - ∫ t in (-π)..phi, flatG kappa nu N t| ≤ E := fun phi h0 h1 => by
    rw [hEd, hMd, hcd]
    exact tabH_error (flatG_smooth hk nu hN) hN (fun t => flatG_pos hN _ _ _) hsum h0 h1
  have hEb : 3 * E ≤ 9 / 10000 * (flatA kappa nu ^ 2 * M) := by
    have hNR : (512 : ℝ) ≤ N := by exact_mod_cast g1
    have hpi := pi_lt_d6
    have hpi3 := pi_gt_three
    have hw : (2 * π / N) ^ 2 ≤ 1.506e-4 := by
      have h1 : 2 * π / N ≤ 2 * π / 512 := div_le_div_of_nonneg_left (by positivity) (by norm_num) hNR
      have h2 : 2 * π / 512 ≤ 0.01227185 := by norm_num at hpi ⊢; linarith
      have h3 : (2 * π / N) ^ 2 ≤ 0.01227185 ^ 2 := pow_le_pow_left₀ (by positivity) (h1.trans h2) 2
      refine h3.trans ?_
      norm_num
    have hin : M * (2 * flatA kappa nu ^ 2) * π / 6 + 3 / 4 * (M * flatA kappa nu ^ 2) ≤ 1.7973 * (flatA kappa nu ^ 2 * M) := by
      have : 0 < flatA kappa nu ^ 2 * M := by positivity
      have h4 : M * (2 * flatA kappa nu ^ 2) * π / 6 + 3 / 4 * (M * flatA kappa nu ^ 2) = (π / 3 + 3 / 4) * (flatA kappa nu ^ 2 * M) := by ring
      rw [h4]
      refine mul_le_mul_of_nonneg_right ?_ this.le
      norm_num at hpi ⊢; linarith
    rw [hEd]
    have h5 := mul_le_mul hw hin (by positivity) (by norm_num)
    have : 0 < flatA kappa nu ^ 2 * M := by positivity
    norm_num at h5 ⊢
    linarith
  refine ⟨fun x => flatG kappa nu N (x - mu), tabCdf N c mu, hpdf, fun x hx => by rw [hcdf x hx, hcd], tabCdf_zero _ _ _,
    hend _ (by linarith [show (0 : ℝ) < 1 / 10 ^ 12 by positivity]) (le_refl _), fun x => tabCdf_mem _ _ _ _,
    fun x hx y hy hxy => tabCdf_mono hN hinc mu hx.1 hxy hy.2, hcont.comp (by fun_prop), fun x h0 h1 => ?_⟩
  have hper : Function.Periodic (flatG kappa nu N) (2 * π) := fun t => by unfold flatG; rw [flatKernel_periodic]
  have hgoal : (kappa + 1) * (1 + |nu|) ^ 2 * flatG kappa nu N (mu - mu) = flatA kappa nu ^ 2 * M := by
    rw [sub_self, ← hMd, flatA_sq hk]; ring
  show |_ - ∫ t in (0 : ℝ)..x, flatG kappa nu N (t - mu)| ≤ 1 / 1000 * ((kappa + 1) * (1 + |nu|) ^ 2 * flatG kappa nu N (mu - mu))
  rw [hgoal]
  have hAM : M ≤ flatA kappa nu ^ 2 * M := le_mul_of_one_le_left hM0.le hA2
  rcases lt_or_ge x (2 * π - 1 / 10 ^ 12) with h | h
  · have := tabCdf_error hcont hper hN hinc hE mu h0 h
    linarith
  · rw [hend x h h1]
    have hi : ∀ u v, IntervalIntegrable (fun t => flatG kappa nu N (t - mu)) volume u v := fun u v =>
      (hcont.comp (by fun_prop : Continuous fun t : ℝ => t - mu)).intervalIntegrable u v
    have htot : ∫ t in (0 : ℝ)..(2 * π), flatG kappa nu N (t - mu) = flatZ kappa nu / flatZN kappa nu N := by
      unfold flatG
      rw [intervalIntegral.integral_div, flatKernel_shift_integral]
    have hsplit := intervalIntegral.integral_add_adjacent_intervals (hi 0 x) (hi x (2 * π))
    have hrest : |∫ t in x..(2 * π), flatG kappa nu N (t - mu)| ≤ M * (1 / 10 ^ 12) := by
      have := intervalIntegral.norm_integral_le_of_norm_le_const (a := x) (b := 2 * π) (C := M) (f := fun t => flatG kappa nu N (t - mu))
        fun t _ => by
          rw [norm_eq_abs, abs_of_pos (flatG_pos hN _ _ _), hMd]
          exact flatG_le_max hk nu hN _
      rw [norm_eq_abs, abs_of_nonneg (by linarith : 0 ≤ 2 * π - x)] at this
      exact this.trans (mul_le_mul_of_nonneg_left (by linarith) hM0.le)
    have hM2 : 1 / 10 ≤ M := by
      by_contra hcon
      push Not at hcon
      have h6 : flatZ kappa nu / flatZN kappa nu N ≤ 2 * π * (1 / 10) := by
        rw [← htot]
        have := intervalIntegral.integral_mono_on (μ := volume) two_pi_pos.le (hi 0 (2 * π))
          (continuous_const.intervalIntegrable (μ := volume) 0 (2 * π)) fun t _ => (flatG_le_max hk nu hN (t - mu)).trans (le_trans (le_of_eq hMd.symm) hcon.le)
        rw [intervalIntegral.integral_const, smul_eq_mul, sub_zero] at this
        exact this
      have := (abs_le.1 hmass).1
      have := pi_lt_four
      norm_num at *
      linarith
    rw [htot] at hsplit
    rw [abs_le] at hrest hmass ⊢
    constructor <;> linarith

/-- C81 for a concrete concentration. -/
example : ∃ F : ℝ → ℝ, (∀ x, RegularAngle x → vmftCdfMethod id x ⟨1, 2, -1 / 2⟩ = some (F x)) ∧ MonotoneOn F (Set.Icc 0 (2 * π)) := by
  obtain ⟨f, F, -, h1, -, -, -, h2, -⟩ := C81_flat_cdf id 1 2 (-1 / 2) (by norm_num) (by linarith [pi_gt_three]) (by norm_num) (by norm_num)
    (by norm_num)
  exact ⟨F, h1, h2⟩

/-- **C81.** Beyond that it fails: the floor `exp(-700)` put under the tabulated density makes the running sum
reach 1 too early, and at concentration 1000 and `mu = 3π/2` the `cdf` is at least 1/2 at `mu` and 0 at
`2π - 1/10`, though `mu < 2π - 1/10`. -/
theorem C81_flat_not_monotone (guess : ℝ → ℝ) :
    (∃ c, vmftCdfMethod guess (3 * π / 2) ⟨3 * π / 2, 1000, 0⟩ = some c ∧ 1 / 2 ≤ c) ∧
      vmftCdfMethod guess (2 * π - 1 / 10) ⟨3 * π / 2, 1000, 0⟩ = some 0 ∧ 3 * π / 2 < 2 * π - 1 / 10 := by
  have hpi := pi_gt_d6
  have hpi2 := pi_lt_d6
  norm_num at hpi hpi2
  have e0 : tabRel 0 (3 * π / 2) = π / 2 := by
    unfold tabRel
    rw [show pymod (0 - 3 * π / 2 + π) (2 * π) = 3 * π / 2 from ?_]
    · ring
    · rw [pymod_eq_iff two_pi_pos]
      exact ⟨by linarith, by linarith, 1, by push_cast; ring⟩
  have e1 : tabRel (3 * π / 2) (3 * π / 2) = 0 := by
    unfold tabRel
    rw [sub_self, zero_add, pymod_eq_self two_pi_pos (by linarith) (by linarith), sub_self]
  have e2 : tabRel (2 * π - 1 / 10) (3 * π / 2) = π / 2 - 1 / 10 := by
    unfold tabRel
    rw [pymod_eq_self two_pi_pos (by linarith) (by linarith)]
    ring
  have hnc : ∀ x, x ≤ 2 * π - 1 / 100 → ¬ isclose x (2 * π) 0 (1 / 10 ^ 12) := fun x hx hc => by
    unfold isclose at hc
    rw [abs_le] at hc
    have := hc.1
    norm_num at this
    linarith
  have hs : tabH 512 (vmftTable 1000 0 512) (π / 2) = 1 := floor_flat (by norm_num; linarith) (by linarith)
  refine ⟨⟨tabH 512 (vmftTable 1000 0 512) 0, ?_, floor_middle.1⟩, ?_, by linarith⟩
  · rw [vmftCdfMethod_eq guess (by positivity) (by linarith) (by norm_num) (le_refl _) (by norm_num)
      ⟨by positivity, Or.inl (by norm_num; linarith)⟩, vmftGrid_thousand]
    unfold tabCdf
    simp only [e0, e1, hs]
    rw [if_neg (hnc _ (by linarith)), if_pos floor_middle.2]
    unfold clip
    rw [sub_add_cancel, max_eq_left (by linarith [floor_middle.1]), min_eq_left floor_middle.2.le]
  · rw [vmftCdfMethod_eq guess (by positivity) (by linarith) (by norm_num) (le_refl _) (by norm_num)
      ⟨by linarith, Or.inl (by norm_num; linarith)⟩, vmftGrid_thousand]
    unfold tabCdf
    simp only [e0, e2, hs]
    rw [if_neg (hnc _ (by linarith)), floor_flat (by norm_num; linarith) (by linarith), if_neg (lt_irrefl _)]
    unfold clip
    norm_num

/-! ## C107: which parameters are accepted -/

/-- **C107.** The methods of the flat-topped von Mises distribution disagree about admissible parameters:
`pdf` clips the concentration before its check, so negative or huge concentrations get a density, while `cdf`
and `ppf` give nan for the same parameters. -/
theorem C107_flat_arguments (guess : ℝ → ℝ) (mu kappa nu x q : ℝ) (hm0 : 0 ≤ mu) (hm1 : mu ≤ 2 * π) (hk : kappa < 0 ∨ 1000 < kappa)
    (hn : |nu| ≤ 1) (hx : RegularAngle x) :
    (∃ v, vmftPdfMethod guess x ⟨mu, kappa, nu⟩ = some v ∧ 0 < v) ∧ vmftCdfMethod guess x ⟨mu, kappa, nu⟩ = none ∧
      vmftPpfMethod guess q ⟨mu, kappa, nu⟩ = none := by
  have hbad : ¬ (vonmisesFlattopped guess).argcheck ⟨mu, kappa, nu⟩ := fun h => by
    obtain ⟨-, ⟨a, b⟩, -⟩ := h
    have b' : kappa ≤ 10 ^ 3 := b
    have a' : 0 ≤ kappa := a
    rcases hk with h | h <;> linarith
  have hclip : clip (clip kappa 0 vmftKappaUpper) 0 vmftKappaUpper = clip kappa 0 vmftKappaUpper := by
    unfold clip vmftKappaUpper
    rw [max_eq_left (le_min (le_max_right _ _) (by norm_num)), min_eq_left (min_le_right _ _)]
  refine ⟨?_, ?_, ?_⟩
  · have hc0 : 0 ≤ clip kappa 0 vmftKappaUpper := by unfold clip vmftKappaUpper; exact le_min (le_max_right _ _) (by norm_num)
    have hc1 : clip kappa 0 vmftKappaUpper ≤ 1000 := by
      unfold clip vmftKappaUpper; exact (min_le_right _ _).trans (by norm_num)
    have e : vmftPdfMethod guess x ⟨mu, kappa, nu⟩ = vmftPdfMethod guess x ⟨mu, clip kappa 0 vmftKappaUpper, nu⟩ := by
      unfold vmftPdfMethod
      simp only [hclip]
    obtain ⟨f, h1, h2, -⟩ := C106_flat_density guess mu _ nu hm0 hm1 hc0 hc1 hn
    exact ⟨f x, by rw [e, h1 x hx], h2 x⟩
  · unfold vmftCdfMethod distCdf
    rw [if_pos hbad]
  · unfold vmftPpfMethod distPpf
    rw [if_pos hbad]

/-- C107 for a concrete negative concentration. -/
example : vmftCdfMethod id 1 ⟨1, -1, 0⟩ = none :=
  (C107_flat_arguments id 1 (-1) 0 1 0 (by norm_num) (by linarith [pi_gt_three]) (Or.inl (by norm_num)) (by norm_num)
    ⟨by norm_num, Or.inl (by linarith [pi_gt_three, show (1 : ℝ) / 10 ^ 14 ≤ 1 by norm_num])⟩).2.1

end Verif
