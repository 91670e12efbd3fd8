import Verif.Lemmas.JonesPewsey
import Mathlib.RingTheory.RootsOfUnity.PrimitiveRoots
import Mathlib.RingTheory.RootsOfUnity.Complex

/-! # Property C104: the Jones-Pewsey family -/

set_option autoImplicit false

namespace Verif

open Real MeasureTheory Verif.Spec

theorem regular_wrap {x : ℝ} (hx : RegularAngle x) : wrap2pi x = x := by
  obtain ⟨a, b | b⟩ := hx
  · exact wrap2pi_self a (by linarith [wrapTol_lt])
  · rw [b]; exact wrap2pi_two_pi

theorem regular_le {x : ℝ} (hx : RegularAngle x) : x ≤ 2 * π := by
  obtain ⟨a, b | b⟩ := hx
  · have : (0 : ℝ) < 1 / 10 ^ 14 := by positivity
    linarith
  · exact b.le

theorem distPdf_regular {σ : Type} (D : Family σ) {s : σ} (ha : D.argcheck s) {x : ℝ} (hx : RegularAngle x) :
    distPdf D x s = some (D.pdf x s) := by
  unfold distPdf
  rw [if_neg (not_not.2 ha), regular_wrap hx, if_pos ⟨hx.1, regular_le hx⟩]

theorem jpShape_kernel {kappa psi : ℝ} (hpsi : 1 / 10 ^ 6 ≤ |psi| ∨ psi = 0) (hA : |kappa * psi| ≤ 700) (phi : ℝ) :
    jpKernel phi kappa psi = jpShape kappa psi phi := by
  unfold jpShape
  rcases hpsi with h | h
  · have : psi ≠ 0 := by
      rintro rfl
      rw [abs_zero] at h
      exact absurd h (by norm_num)
    rw [if_neg this]
    exact jpKernel_eq h hA phi
  · rw [if_pos h]
    unfold jpKernel
    rw [if_pos]
    rw [h, abs_zero]; unfold jpPsiTol; positivity

theorem jpPdf_eq {lpmv : ℝ → ℝ → Option ℝ} (hl : LpmvExact lpmv) {mu kappa psi : ℝ} (hk : 1 / 10 ^ 3 ≤ kappa)
    (hA : |kappa * psi| ≤ 700) (x : ℝ) :
    jpPdf lpmv x mu kappa psi
      = jpKernel (x - mu) kappa psi / ∫ t in (0 : ℝ)..(2 * π), jpKernel (t - mu) kappa psi := by
  have hk0 : 0 < kappa := lt_of_lt_of_le (by norm_num) hk
  have hc : jpConst lpmv mu kappa psi = 1 / ∫ t in (0 : ℝ)..(2 * π), jpKernel (t - mu) kappa psi := by
    rw [eq_div_iff (jpKernel_mass_pos mu kappa psi).ne']
    exact jpConst_mul hl hk hA mu
  unfold jpPdf
  rw [if_neg (by rw [abs_of_pos hk0]; exact not_lt.2 hk), hc]
  split_ifs with h
  · rw [show jpKernel (x - mu) kappa psi = exp (kappa * cos (x - mu)) by unfold jpKernel; rw [if_pos h]]
    ring
  · ring

theorem jp_isCircularDensity (mu kappa psi : ℝ) : IsCircularDensity fun x =>
    jpKernel (x - mu) kappa psi / ∫ t in (0 : ℝ)..(2 * π), jpKernel (t - mu) kappa psi := by
  have hm := jpKernel_mass_pos mu kappa psi
  refine ⟨fun x _ _ => (div_pos (jpKernel_pos _ _ _) hm).le, ?_, ?_⟩
  · exact (((jpKernel_continuous kappa psi).comp (continuous_id.sub continuous_const)).div_const _).intervalIntegrable _ _
  · rw [intervalIntegral.integral_div, div_self hm.ne']

/-- **C104.** For every accepted centre, every `kappa` from `1e-3` on and every `psi` that is 0 or at least
`1e-6` in size (with `|kappa psi| ≤ 700`, beyond which floating point overflows), and for a correct Legendre
function: the density of the Jones-Pewsey object is
`(cosh(κψ) + sinh(κψ) cos(x - μ))^(1/ψ)` divided by its integral over the circle. It is positive, has total
mass 1, is symmetric about `mu` and largest there. -/
theorem C104_density (E : JPEnv) (hl : LpmvExact E.lpmv) {mu kappa psi : ℝ} (hm0 : 0 ≤ mu) (hm1 : mu ≤ 2 * π)
    (hk : 1 / 10 ^ 3 ≤ kappa) (hpsi : 1 / 10 ^ 6 ≤ |psi| ∨ psi = 0) (hA : |kappa * psi| ≤ 700) :
    let f := fun x => jpShape kappa psi (x - mu) / ∫ t in (0 : ℝ)..(2 * π), jpShape kappa psi (t - mu)
    IsCircularDensity f ∧ (∀ x, 0 < f x) ∧ (∀ d, f (mu + d) = f (mu - d)) ∧ (∀ x, f x ≤ f mu) ∧
    (∀ x, RegularAngle x → distPdf (jonespewsey E) x ⟨mu, kappa, psi⟩ = some (f x)) := by
  have hk0 : 0 < kappa := lt_of_lt_of_le (by norm_num) hk
  intro f
  have hf : f = fun x => jpKernel (x - mu) kappa psi / ∫ t in (0 : ℝ)..(2 * π), jpKernel (t - mu) kappa psi := by
    show (fun x => _) = _
    simp only [jpShape_kernel hpsi hA]
  have hm := jpKernel_mass_pos mu kappa psi
  refine ⟨hf ▸ jp_isCircularDensity mu kappa psi, ?_, ?_, ?_, ?_⟩
  · intro x; rw [hf]; exact div_pos (jpKernel_pos _ _ _) hm
  · intro d
    rw [hf]
    simp only
    rw [show mu - d - mu = -(mu + d - mu) by ring, jpKernel_neg]
  · intro x
    have key : jpShape kappa psi (x - mu) ≤ jpShape kappa psi (mu - mu) := by
      unfold jpShape
      rw [sub_self, cos_zero, mul_one, mul_one]
      have hc := cos_le_one (x - mu)
      split_ifs with h
      · exact exp_le_exp.2 (by nlinarith)
      · have hb := jp_base_pos (kappa * psi) (x - mu)
        rcases lt_or_gt_of_ne h with h | h
        · have hs : sinh (kappa * psi) ≤ 0 := sinh_nonpos_iff.2 (by nlinarith)
          refine rpow_le_rpow_of_nonpos ?_ (by nlinarith) (one_div_nonpos.2 h.le)
          rw [cosh_add_sinh]; exact exp_pos _
        · have hs : 0 ≤ sinh (kappa * psi) := sinh_nonneg_iff.2 (by positivity)
          exact rpow_le_rpow hb.le (by nlinarith) (by positivity)
    rw [← jpShape_kernel hpsi hA, ← jpShape_kernel hpsi hA] at key
    rw [hf]
    exact div_le_div_of_nonneg_right key hm.le
  · intro x hx
    rw [distPdf_regular _ (show (jonespewsey E).argcheck ⟨mu, kappa, psi⟩ from ⟨⟨hm0, hm1⟩, hk0.le⟩) hx, hf]
    exact congrArg some (jpPdf_eq hl hk hA x)

/-- **C104.** For `kappa` below `1e-3` the object is the uniform distribution, whatever `psi`. -/
theorem C104_small_kappa (E : JPEnv) {mu kappa psi : ℝ} (hm0 : 0 ≤ mu) (hm1 : mu ≤ 2 * π)
    (hk0 : 0 ≤ kappa) (hk : kappa < 1 / 10 ^ 3) :
    IsDistribution (fun x => distPdf (jonespewsey E) x ⟨mu, kappa, psi⟩)
      (fun x => distCdf (jonespewsey E) x ⟨mu, kappa, psi⟩) (fun _ => 1 / (2 * π)) := by
  have hp := two_pi_pos
  refine isDistribution_of_family _ _ (show (jonespewsey E).argcheck ⟨mu, kappa, psi⟩ from ⟨⟨hm0, hm1⟩, hk0⟩) _ ?_ ?_ ?_
  · refine ⟨fun x _ _ => by positivity, by simp, ?_⟩
    rw [intervalIntegral.integral_const, smul_eq_mul]
    field_simp
    ring
  · intro x _ _
    show jpPdf E.lpmv x mu kappa psi = _
    unfold jpPdf
    rw [if_pos (by rw [abs_of_nonneg hk0]; exact hk)]
  · intro x hx0 hx1
    have h14 : (0 : ℝ) < 1 / 10 ^ 14 := by positivity
    show jpCdf E x ⟨mu, kappa, psi⟩ = _
    unfold jpCdf
    simp only
    rw [if_pos (show kappa < jpKappaTol from hk), wrap2pi_self hx0.le (by linarith [wrapTol_lt]),
      pymod_eq_self hp hx0.le (by linarith), intervalIntegral.integral_const, smul_eq_mul]
    ring

/-- **C104.** For `|psi|` below `1e-6` the object is the von Mises distribution with the same `mu` and
`kappa`: the same density and the same cdf. -/
theorem C104_vonmises (E : JPEnv) {mu kappa psi x : ℝ} (hm0 : 0 ≤ mu) (hm1 : mu ≤ 2 * π)
    (hk : 1 / 10 ^ 3 ≤ kappa) (hpsi : |psi| < 1 / 10 ^ 6) (hx : RegularAngle x) :
    distPdf (jonespewsey E) x ⟨mu, kappa, psi⟩ = distPdf (vonmises E.numCdf) x (mu, kappa) ∧
    distCdf (jonespewsey E) x ⟨mu, kappa, psi⟩ = distCdf (vonmises E.numCdf) x (mu, kappa) := by
  have hk0 : 0 < kappa := lt_of_lt_of_le (by norm_num) hk
  have ha : (jonespewsey E).argcheck ⟨mu, kappa, psi⟩ := ⟨⟨hm0, hm1⟩, hk0.le⟩
  have hb : (vonmises E.numCdf).argcheck (mu, kappa) := ⟨⟨hm0, hm1⟩, hk0⟩
  constructor
  · rw [distPdf_regular _ ha hx, distPdf_regular _ hb hx]
    congr 1
    show jpPdf E.lpmv x mu kappa psi = vmPdf x mu kappa
    unfold jpPdf jpConst vmPdf
    rw [if_neg (by rw [abs_of_pos hk0]; exact not_lt.2 hk), if_pos (show |psi| < jpPsiTol from hpsi),
      if_neg (not_lt.2 (show jpKappaTol ≤ kappa from hk)), if_pos (show |psi| < jpPsiTol from hpsi)]
    ring
  · unfold distCdf
    rw [if_neg (not_not.2 ha), if_neg (not_not.2 hb), regular_wrap hx]
    split_ifs with h1 h2
    · rfl
    · congr 1
      show jpCdf E x ⟨mu, kappa, psi⟩ = vmCdf E.numCdf x mu kappa
      unfold jpCdf jpVmCdf distCdf
      simp only
      rw [if_neg (not_lt.2 (show jpKappaTol ≤ kappa from hk)), if_pos (show |psi| < jpPsiTol from hpsi),
        if_neg (not_not.2 hb), regular_wrap hx, regular_wrap hx, if_neg h1, if_pos h2]
      rfl
    · rfl

/-! ## Special cases -/

theorem tanh_pos' {x : ℝ} (hx : 0 < x) : 0 < tanh x := by
  rw [tanh_eq_sinh_div_cosh]
  exact div_pos (sinh_pos_iff.2 hx) (cosh_pos x)

theorem jp_cardioid_mass (mu kappa : ℝ) :
    ∫ t in (0 : ℝ)..(2 * π), (cosh kappa + sinh kappa * cos (t - mu)) = 2 * π * cosh kappa := by
  rw [intervalIntegral.integral_add (by simp) ((by fun_prop : Continuous fun t => sinh kappa * cos (t - mu)).intervalIntegrable _ _),
    intervalIntegral.integral_const_mul, intervalIntegral.integral_comp_sub_right (fun t => cos t), integral_cos,
    show (2 : ℝ) * π - mu = 0 - mu + 2 * π by ring, sin_add_two_pi]
  simp

theorem jp_cardioid_kernel {kappa : ℝ} (hk : |kappa| ≤ 700) (phi : ℝ) :
    jpKernel phi kappa 1 = cosh kappa + sinh kappa * cos phi := by
  rw [jpKernel_eq (by unfold jpPsiTol; norm_num) (by simpa using hk)]
  simp

theorem jp_cardioid_pdf {lpmv : ℝ → ℝ → Option ℝ} (hl : LpmvExact lpmv) {mu kappa : ℝ} (hk : 1 / 10 ^ 3 ≤ kappa)
    (hk1 : kappa ≤ 700) (x : ℝ) : jpPdf lpmv x mu kappa 1 = cardPdf x mu (tanh kappa / 2) := by
  have hk0 : 0 < kappa := lt_of_lt_of_le (by norm_num) hk
  have hka : |kappa| ≤ 700 := by rwa [abs_of_pos hk0]
  rw [jpPdf_eq hl hk (by simpa using hka)]
  simp only [jp_cardioid_kernel hka]
  rw [jp_cardioid_mass]
  unfold cardPdf
  rw [tanh_eq_sinh_div_cosh]
  have := cosh_pos kappa
  have := pi_pos
  field_simp

/-- Sums of cosines over an equally spaced grid. -/
theorem sum_cos_grid (N m : ℕ) (hN : N ≠ 0) (h0 : 0 < m) (h1 : m < N) (a : ℝ) :
    ∑ j ∈ Finset.range N, cos (m * (a + j * (2 * π / N))) = 0 := by
  set w : ℂ := Complex.exp (2 * π * Complex.I / N) with hw
  have hprim : IsPrimitiveRoot w N := Complex.isPrimitiveRoot_exp N hN
  have hne : w ^ m ≠ 1 := hprim.pow_ne_one_of_pos_of_lt h0.ne' h1
  have hpow : (w ^ m) ^ N = 1 := by rw [← pow_mul, mul_comm, pow_mul, hprim.pow_eq_one, one_pow]
  have hsum : ∑ j ∈ Finset.range N, (w ^ m) ^ j = 0 := by
    rw [geom_sum_eq hne, hpow, sub_self, zero_div]
  have e : ∀ j : ℕ, cos (m * (a + j * (2 * π / N))) = (Complex.exp ((m * a : ℝ) * Complex.I) * (w ^ m) ^ j).re := by
    intro j
    have : Complex.exp ((m * a : ℝ) * Complex.I) * (w ^ m) ^ j
        = Complex.exp ((m * (a + j * (2 * π / N)) : ℝ) * Complex.I) := by
      rw [hw, ← Complex.exp_nat_mul, ← Complex.exp_nat_mul, ← Complex.exp_add]
      congr 1
      push_cast
      ring
    rw [this, Complex.exp_ofReal_mul_I_re]
  simp only [e]
  rw [← Complex.re_sum, ← Finset.mul_sum, hsum, mul_zero, Complex.zero_re]

/-- Sums of cosines over the grid used for the coefficients. -/
theorem jp_grid_cos (m : ℕ) (h0 : 0 < m) (h1 : m < 4096) : ∑ j ∈ Finset.range 4096, cos (m * jpGrid j) = 0 := by
  have := sum_cos_grid 4096 m (by norm_num) h0 h1 (-π)
  rwa [Nat.cast_ofNat] at this

/-- The coefficients the code computes from a density `(1 + 2ρ cos φ)/(2π)`. -/
theorem jp_grid_coeff (rho : ℝ) (n : ℕ) (h0 : 0 < n) (h1 : n ≤ 256) :
    2 * π / 4096 * ∑ j ∈ Finset.range 4096, cos (n * jpGrid j) * cardPdf (pymod (jpGrid j) (2 * π)) 0 rho
      = if n = 1 then rho else 0 := by
  have hpi := pi_pos
  have e : ∀ j : ℕ, cos (n * jpGrid j) * cardPdf (pymod (jpGrid j) (2 * π)) 0 rho
      = 1 / (2 * π) * (cos (n * jpGrid j) + rho * (cos (((n + 1 : ℕ) : ℝ) * jpGrid j) + cos (((n - 1 : ℕ) : ℝ) * jpGrid j))) := by
    intro j
    have hc : cos (pymod (jpGrid j) (2 * π)) = cos (jpGrid j) := cos_eq_of_sameDir (pymod_cong _ _)
    unfold cardPdf
    rw [sub_zero, hc]
    have ep : cos (((n + 1 : ℕ) : ℝ) * jpGrid j) = cos (n * jpGrid j) * cos (jpGrid j) - sin (n * jpGrid j) * sin (jpGrid j) := by
      rw [← cos_add]; push_cast; ring_nf
    have em : cos (((n - 1 : ℕ) : ℝ) * jpGrid j) = cos (n * jpGrid j) * cos (jpGrid j) + sin (n * jpGrid j) * sin (jpGrid j) := by
      rw [← cos_sub, Nat.cast_sub h0]; push_cast; ring_nf
    rw [ep, em]
    field_simp
    ring
  simp only [e]
  rw [← Finset.mul_sum, Finset.sum_add_distrib, ← Finset.mul_sum, Finset.sum_add_distrib,
    jp_grid_cos n h0 (by omega), jp_grid_cos (n + 1) (by omega) (by omega)]
  by_cases h : n = 1
  · subst h
    simp
    field_simp
  · rw [if_neg h, jp_grid_cos (n - 1) (by omega) (by omega)]
    simp

theorem jp_cardioid_coeff {lpmv : ℝ → ℝ → Option ℝ} (hl : LpmvExact lpmv) {kappa : ℝ} (hk : 1 / 10 ^ 3 ≤ kappa)
    (hk1 : kappa ≤ 700) (n : ℕ) (h0 : 0 < n) (h1 : n ≤ 256) :
    jpCosCoeff lpmv kappa 1 n = if n = 1 then tanh kappa / 2 else 0 := by
  have hk0 : 0 < kappa := lt_of_lt_of_le (by norm_num) hk
  unfold jpCosCoeff
  simp only [jp_cardioid_pdf hl hk hk1]
  rw [jp_grid_coeff _ n h0 h1]
  have t0 : 0 < tanh kappa := tanh_pos' hk0
  have t1 := tanh_lt_one kappa
  unfold clip
  split_ifs
  · rw [max_eq_left (by linarith), min_eq_left (by linarith)]
  · norm_num

theorem jp_cardioid_FN {lpmv : ℝ → ℝ → Option ℝ} (hl : LpmvExact lpmv) {kappa : ℝ} (hk : 1 / 10 ^ 3 ≤ kappa)
    (hk1 : kappa ≤ 700) (x mu : ℝ) :
    jpFN (jpCosCoeff lpmv kappa 1) (jpKept (jpCosCoeff lpmv kappa 1)) (x - mu) = cardPdf x mu (tanh kappa / 2) := by
  have hN : 1 ≤ jpKept (jpCosCoeff lpmv kappa 1) := le_max_left _ _
  have hN2 : jpKept (jpCosCoeff lpmv kappa 1) ≤ 256 := by
    unfold jpKept
    refine max_le (by norm_num) (Finset.sup_le fun i hi => ?_)
    have := Finset.mem_range.1 (Finset.mem_filter.1 hi).1
    omega
  unfold jpFN cardPdf
  have hpi := pi_pos
  rw [Finset.sum_eq_single_of_mem 0 (Finset.mem_range.2 (by omega))]
  · rw [jp_cardioid_coeff hl hk hk1 _ (by omega) (by omega)]
    simp
    field_simp
  · intro i hi hi0
    have := Finset.mem_range.1 hi
    rw [jp_cardioid_coeff hl hk hk1 _ (by omega) (by omega), if_neg (by omega), zero_mul]

/-- **C104.** `psi = 1` is the cardioid distribution with `rho = tanh(κ)/2`: the object's density and cdf are
exactly those of it. -/
theorem C104_cardioid (E : JPEnv) (hl : LpmvExact E.lpmv) {mu kappa : ℝ} (hm0 : 0 ≤ mu) (hm1 : mu ≤ 2 * π)
    (hk : 1 / 10 ^ 3 ≤ kappa) (hk1 : kappa ≤ 700) :
    IsDistribution (fun x => distPdf (jonespewsey E) x ⟨mu, kappa, 1⟩)
      (fun x => distCdf (jonespewsey E) x ⟨mu, kappa, 1⟩)
      (fun x => (1 + 2 * (tanh kappa / 2) * cos (x - mu)) / (2 * π)) := by
  have hk0 : 0 < kappa := lt_of_lt_of_le (by norm_num) hk
  have t0 : 0 < tanh kappa := tanh_pos' hk0
  have t1 := tanh_lt_one kappa
  have hf : (fun x => (1 + 2 * (tanh kappa / 2) * cos (x - mu)) / (2 * π)) = fun x => cardPdf x mu (tanh kappa / 2) := by
    funext x; unfold cardPdf; rw [div_div]
  rw [hf]
  have hd := card_isCircularDensity (rho := tanh kappa / 2) mu (by linarith) (by linarith)
  refine isDistribution_of_family _ _ (show (jonespewsey E).argcheck ⟨mu, kappa, 1⟩ from ⟨⟨hm0, hm1⟩, hk0.le⟩) _ hd ?_ ?_
  · intro x _ _
    exact jp_cardioid_pdf hl hk hk1 x
  · intro x hx0 hx1
    have h14 : (0 : ℝ) < 1 / 10 ^ 14 := by positivity
    show jpCdf E x ⟨mu, kappa, 1⟩ = _
    unfold jpCdf
    simp only
    rw [if_neg (not_lt.2 (show jpKappaTol ≤ kappa from hk)), if_neg (by unfold jpPsiTol; norm_num),
      wrap2pi_self hx0.le (by linarith [wrapTol_lt]), jpSeriesCdf_eq _ _ hx0.le (by linarith)]
    simp only [jp_cardioid_FN hl hk hk1]
    have i0 : 0 ≤ ∫ t in (0 : ℝ)..x, cardPdf t mu (tanh kappa / 2) :=
      intervalIntegral.integral_nonneg hx0.le fun t ht => hd.nonneg t ht.1 (by linarith [ht.2])
    have i1 : ∫ t in (0 : ℝ)..x, cardPdf t mu (tanh kappa / 2) ≤ 1 := by
      rw [← hd.mass]
      exact intervalIntegral.integral_mono_interval le_rfl hx0.le (by linarith)
        ((ae_restrict_iff' measurableSet_Ioc).2 (Filter.Eventually.of_forall fun t ht =>
          hd.nonneg t ht.1.le ht.2)) hd.integrable
    unfold clip
    rw [max_eq_left i0, min_eq_left i1]

theorem jp_wrapcauchy_kernel {kappa : ℝ} (hk : 1 / 10 ^ 3 ≤ kappa) (hk1 : kappa ≤ 700) (mu t : ℝ) :
    jpKernel (t - mu) kappa (-1) = 2 * π * wcPdf t mu (tanh (kappa / 2)) := by
  have hk0 : 0 < kappa := lt_of_lt_of_le (by norm_num) hk
  have hka : |kappa * -1| ≤ 700 := by rw [mul_neg_one, abs_neg, abs_of_pos hk0]; exact hk1
  have t0 : 0 < tanh (kappa / 2) := tanh_pos' (by linarith)
  have t1 := tanh_lt_one (kappa / 2)
  have hpi := pi_pos
  rw [jpKernel_eq (by unfold jpPsiTol; norm_num) hka]
  unfold wcPdf
  have hden := wc_kernel_pos t0.le t1 (t - mu)
  have hb := jp_base_pos (kappa * -1) (t - mu)
  rw [show (1 : ℝ) / -1 = -1 by norm_num, rpow_neg_one]
  rw [mul_neg_one, cosh_neg, sinh_neg] at hb ⊢
  have hch := cosh_pos (kappa / 2)
  have e1 : cosh kappa = cosh (kappa / 2) ^ 2 + sinh (kappa / 2) ^ 2 := by
    rw [← cosh_two_mul]; congr 1; ring
  have e2 : sinh kappa = 2 * sinh (kappa / 2) * cosh (kappa / 2) := by
    rw [← sinh_two_mul]; congr 1; ring
  have e3 := cosh_sq (kappa / 2)
  have hpi2 : (2 : ℝ) * π ≠ 0 := by positivity
  rw [mul_div_assoc', mul_div_mul_left _ _ hpi2, inv_eq_one_div, div_eq_div_iff hb.ne' hden.ne', e1, e2, tanh_eq_sinh_div_cosh]
  field_simp
  rw [e3]
  ring

theorem jp_wrapcauchy_pdf {lpmv : ℝ → ℝ → Option ℝ} (hl : LpmvExact lpmv) {mu kappa : ℝ} (hk : 1 / 10 ^ 3 ≤ kappa)
    (hk1 : kappa ≤ 700) (x : ℝ) : jpPdf lpmv x mu kappa (-1) = wcPdf x mu (tanh (kappa / 2)) := by
  have hk0 : 0 < kappa := lt_of_lt_of_le (by norm_num) hk
  have hka : |kappa * -1| ≤ 700 := by rw [mul_neg_one, abs_neg, abs_of_pos hk0]; exact hk1
  have t0 : 0 < tanh (kappa / 2) := tanh_pos' (by linarith)
  have t1 := tanh_lt_one (kappa / 2)
  have hpi := pi_pos
  rw [jpPdf_eq hl hk hka]
  simp only [jp_wrapcauchy_kernel hk hk1]
  rw [intervalIntegral.integral_const_mul, (wc_isCircularDensity mu t0.le t1).mass]
  field_simp

/-- **C104.** `psi = -1` has the density of the wrapped Cauchy distribution with `rho = tanh(κ/2)`. -/
theorem C104_wrapcauchy (E : JPEnv) (hl : LpmvExact E.lpmv) {mu kappa x : ℝ} (hm0 : 0 ≤ mu) (hm1 : mu ≤ 2 * π)
    (hk : 1 / 10 ^ 3 ≤ kappa) (hk1 : kappa ≤ 700) (hx : RegularAngle x) :
    distPdf (jonespewsey E) x ⟨mu, kappa, -1⟩ = distPdf wrapcauchy x (mu, tanh (kappa / 2)) := by
  have hk0 : 0 < kappa := lt_of_lt_of_le (by norm_num) hk
  have t0 : 0 < tanh (kappa / 2) := tanh_pos' (by linarith)
  have t1 := tanh_lt_one (kappa / 2)
  rw [distPdf_regular _ (show (jonespewsey E).argcheck ⟨mu, kappa, -1⟩ from ⟨⟨hm0, hm1⟩, hk0.le⟩) hx,
    distPdf_regular _ (show wrapcauchy.argcheck (mu, tanh (kappa / 2)) from ⟨⟨hm0, hm1⟩, t0.le, t1⟩) hx]
  congr 1
  exact jp_wrapcauchy_pdf hl hk hk1 x

end Verif
