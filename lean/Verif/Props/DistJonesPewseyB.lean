import Verif.Lemmas.JPSeries
import Verif.Lemmas.KatoJones
import Verif.Props.Solver

/-! # Properties C104 (distribution function) and C77 (the sine-skewed family) -/

set_option autoImplicit false

namespace Verif

open Real MeasureTheory Verif.Spec

/-! ## Set-up -/

/-- The normalised kernel about 0. -/
noncomputable def jpUnit (kappa psi phi : ℝ) : ℝ :=
  jpKernel phi kappa psi / ∫ t in (0 : ℝ)..(2 * π), jpKernel t kappa psi

theorem jpUnit_props {kappa psi : ℝ} (hpsi : 1 / 10 ^ 6 ≤ |psi| ∨ psi = 0) (hA : |kappa * psi| ≤ 700) :
    ContDiff ℝ 2 (jpUnit kappa psi) ∧ Function.Periodic (jpUnit kappa psi) (2 * π) ∧ (∀ t, jpUnit kappa psi (-t) = jpUnit kappa psi t) ∧
    (∀ t, 0 ≤ jpUnit kappa psi t) ∧ ∫ t in (0 : ℝ)..(2 * π), jpUnit kappa psi t = 1 := by
  have hm : 0 < ∫ t in (0 : ℝ)..(2 * π), jpKernel t kappa psi := by
    have := jpKernel_mass_pos 0 kappa psi
    simpa using this
  refine ⟨(jpKernel_contDiff hpsi hA).div_const _, fun t => ?_, fun t => ?_, fun t => (div_pos (jpKernel_pos _ _ _) hm).le, ?_⟩
  · unfold jpUnit; exact congrArg (· / _) (jpKernel_periodic kappa psi t)
  · unfold jpUnit; rw [jpKernel_neg]
  · unfold jpUnit; rw [intervalIntegral.integral_div, div_self hm.ne']

theorem jpMass_shift (mu kappa psi : ℝ) :
    ∫ t in (0 : ℝ)..(2 * π), jpKernel (t - mu) kappa psi = ∫ t in (0 : ℝ)..(2 * π), jpKernel t kappa psi := by
  rw [intervalIntegral.integral_comp_sub_right (fun t => jpKernel t kappa psi), show 2 * π - mu = 0 - mu + 2 * π by ring,
    (jpKernel_periodic kappa psi).intervalIntegral_add_eq (0 - mu) 0, zero_add]

theorem jpUnit_shift (mu kappa psi x : ℝ) : jpUnit kappa psi (x - mu)
    = jpKernel (x - mu) kappa psi / ∫ t in (0 : ℝ)..(2 * π), jpKernel (t - mu) kappa psi := by
  rw [jpMass_shift]; rfl

theorem jpCosCoeff_eq {lpmv : ℝ → ℝ → Option ℝ} (hl : LpmvExact lpmv) {kappa psi : ℝ} (hk : 1 / 10 ^ 3 ≤ kappa)
    (hA : |kappa * psi| ≤ 700) (n : ℕ) :
    jpCosCoeff lpmv kappa psi n = clip (2 * π / 4096 * ∑ j ∈ Finset.range 4096, cos ((n : ℝ) * jpGrid j) * jpUnit kappa psi (jpGrid j)) (-1) 1 := by
  have key : ∀ j, jpPdf lpmv (pymod (jpGrid j) (2 * π)) 0 kappa psi = jpUnit kappa psi (jpGrid j) := by
    intro j
    rw [jpPdf_eq hl hk hA, ← jpUnit_shift, sub_zero]
    unfold jpUnit
    congr 1
    unfold jpKernel
    rw [cos_eq_of_sameDir (pymod_cong (jpGrid j) (2 * π))]
  unfold jpCosCoeff
  simp only [key]

theorem cosCoeff_shift {g : ℝ → ℝ} (hper : Function.Periodic g (2 * π)) (mu : ℝ) (n : ℕ) :
    cosCoeff g n = ∫ t in (0 : ℝ)..(2 * π), g (t - mu) * cos (n * (t - mu)) := by
  have hp : Function.Periodic (fun t => g t * cos (n * t)) (2 * π) := fun t => by
    show g (t + 2 * π) * cos (n * (t + 2 * π)) = _
    rw [hper t, mul_add, cos_add_nat_mul_two_pi]
  rw [intervalIntegral.integral_comp_sub_right (fun t => g t * cos (n * t)), show 2 * π - mu = 0 - mu + 2 * π by ring,
    hp.intervalIntegral_add_eq (0 - mu) 0, zero_add]
  rfl

/-- Core of the accuracy statements. -/
theorem jss_cdf_core (E : JPEnv) (hl : LpmvExact E.lpmv) {xi kappa psi lmbd : ℝ}
    (hk : 1 / 10 ^ 3 ≤ kappa) (hpsi : 1 / 10 ^ 6 ≤ |psi| ∨ psi = 0) (hA : |kappa * psi| ≤ 700) (hla : |lmbd| ≤ 1)
    {x : ℝ} (hx0 : 0 ≤ x) (hx1 : x < 2 * π) :
    |jssSeriesCdf (jpCosCoeff E.lpmv kappa psi) (jpKept (jpCosCoeff E.lpmv kappa psi)) x xi lmbd
        - ∫ t in (0 : ℝ)..x, jpUnit kappa psi (t - xi) * (1 + lmbd * sin (t - xi))|
      ≤ (1 + |lmbd|) * (2 / 10 ^ 9 + 4 * ∑' n : ℕ, |cosCoeff (jpUnit kappa psi) (n + 257)|) := by
  obtain ⟨h1, h2, h3, h4, h5⟩ := jpUnit_props hpsi hA
  exact jp_series_error h1 h2 h3 h4 h5 (fun i _ => jpCosCoeff_eq hl hk hA (i + 1)) hla hx0 hx1

theorem jpUnit_eq_shape {kappa psi : ℝ} (hpsi : 1 / 10 ^ 6 ≤ |psi| ∨ psi = 0) (hA : |kappa * psi| ≤ 700) (mu x : ℝ) :
    jpUnit kappa psi (x - mu) = jpShape kappa psi (x - mu) / ∫ t in (0 : ℝ)..(2 * π), jpShape kappa psi (t - mu) := by
  rw [jpUnit_shift]
  simp only [jpShape_kernel hpsi hA]

/-! ## C104: the distribution function -/

/-- **C104.** The cdf method, which adds at most 256 terms of a Fourier series with coefficients from 4096
density values, is within `2e-9` plus four times the sum of the density's cosine moments beyond the 256th of
the exact distribution function. -/
theorem C104_cdf_error (E : JPEnv) (hl : LpmvExact E.lpmv) {mu kappa psi : ℝ} (hm0 : 0 ≤ mu) (hm1 : mu ≤ 2 * π)
    (hk : 1 / 10 ^ 3 ≤ kappa) (hpsi : 1 / 10 ^ 6 ≤ |psi|) (hA : |kappa * psi| ≤ 700) :
    let f := fun x => jpShape kappa psi (x - mu) / ∫ t in (0 : ℝ)..(2 * π), jpShape kappa psi (t - mu)
    let tail := fun n : ℕ => |∫ t in (0 : ℝ)..(2 * π), f t * cos (((n + 257 : ℕ) : ℝ) * (t - mu))|
    Summable tail ∧ ∀ x, RegularAngle x → ∃ v, distCdf (jonespewsey E) x ⟨mu, kappa, psi⟩ = some v ∧
      |v - ∫ t in (0 : ℝ)..x, f t| ≤ 2 / 10 ^ 9 + 4 * ∑' n, tail n := by
  have hk0 : 0 < kappa := lt_of_lt_of_le (by norm_num) hk
  obtain ⟨h1, h2, h3, h4, h5⟩ := jpUnit_props (Or.inl hpsi) hA
  intro f tail
  have hf : ∀ x, f x = jpUnit kappa psi (x - mu) := fun x => (jpUnit_eq_shape (Or.inl hpsi) hA mu x).symm
  have ht : tail = fun n => |cosCoeff (jpUnit kappa psi) (n + 257)| := by
    funext n
    show |_| = |_|
    rw [cosCoeff_shift h2 mu]
    simp only [hf]
  have hsum : Summable tail := by
    rw [ht]
    exact (summable_nat_add_iff (f := fun n => |cosCoeff (jpUnit kappa psi) n|) 257).2 (cos_coeff_summable h1 h2)
  have hT : 0 ≤ ∑' n, tail n := tsum_nonneg fun n => abs_nonneg _
  have ha : (jonespewsey E).argcheck ⟨mu, kappa, psi⟩ := ⟨⟨hm0, hm1⟩, hk0.le⟩
  refine ⟨hsum, fun x hx => ?_⟩
  unfold distCdf
  rw [if_neg (not_not.2 ha), regular_wrap hx]
  have hd := skew_isCircularDensity h1.continuous h2 h3 h4 h5 mu (lmbd := 0) (by simp)
  split_ifs with hx1 hx2
  · have : x = 2 * π := le_antisymm (regular_le hx) hx1
    refine ⟨1, rfl, ?_⟩
    have : ∫ t in (0 : ℝ)..x, f t = 1 := by
      rw [this, ← hd.mass]
      simp [hf]
    rw [this, sub_self, abs_zero]
    positivity
  · refine ⟨_, rfl, ?_⟩
    have := jss_cdf_core E hl (xi := mu) hk (Or.inl hpsi) hA (lmbd := 0) (by simp) hx2.le (not_le.1 hx1)
    rw [abs_zero, add_zero, one_mul, ← ht] at this
    simp only [zero_mul, add_zero, mul_one, ← hf] at this
    have e : (jonespewsey E).cdf x ⟨mu, kappa, psi⟩
        = jssSeriesCdf (jpCosCoeff E.lpmv kappa psi) (jpKept (jpCosCoeff E.lpmv kappa psi)) x mu 0 := by
      show jpCdf E x ⟨mu, kappa, psi⟩ = _
      unfold jpCdf
      simp only
      rw [if_neg (not_lt.2 (show jpKappaTol ≤ kappa from hk)), if_neg (not_lt.2 (show jpPsiTol ≤ |psi| from hpsi)),
        regular_wrap hx, jpSeriesCdf_eq _ _ hx2.le (not_le.1 hx1), jssSeriesCdf_eq _ _ _ hx2.le (not_le.1 hx1)]
      simp
    rw [e]
    exact this
  · have : x = 0 := le_antisymm (not_lt.1 hx2) hx.1
    refine ⟨0, rfl, ?_⟩
    rw [this]
    simp only [intervalIntegral.integral_same, sub_self, abs_zero]
    positivity

theorem wc_cos_moment {rho : ℝ} (h0 : 0 ≤ rho) (h1 : rho < 1) (mu : ℝ) (n : ℕ) :
    ∫ x in (0 : ℝ)..(2 * π), wcPdf x mu rho * cos (((n + 1 : ℕ) : ℝ) * (x - mu)) = rho ^ (n + 1) := by
  have hpi := pi_pos
  have e : ∀ x, wcPdf x mu rho = kjDensity mu rho rho 0 x := by
    intro x
    have hd := wc_kernel_pos h0 h1 (x - mu)
    unfold wcPdf kjDensity
    rw [cos_zero, sub_zero]
    generalize hD : 1 + rho ^ 2 - 2 * rho * cos (x - mu) = D at hd
    have hc : 2 * rho * cos (x - mu) = 1 + rho ^ 2 - D := by linarith
    field_simp
    linear_combination -hc
  have e2 : ∀ x, wcPdf x mu rho * cos (((n + 1 : ℕ) : ℝ) * (x - mu))
      = cos (((n + 1 : ℕ) : ℝ) * mu) * (kjDensity mu rho rho 0 x * cos (((n + 1 : ℕ) : ℝ) * x))
        + sin (((n + 1 : ℕ) : ℝ) * mu) * (kjDensity mu rho rho 0 x * sin (((n + 1 : ℕ) : ℝ) * x)) := by
    intro x
    rw [e, mul_sub, cos_sub]
    ring
  have hc := kjDensity_continuous h0 h1 mu rho 0
  simp only [e2]
  rw [intervalIntegral.integral_add ((by fun_prop : Continuous fun x => cos (((n + 1 : ℕ) : ℝ) * mu) * (kjDensity mu rho rho 0 x * cos (((n + 1 : ℕ) : ℝ) * x))).intervalIntegrable _ _)
    ((by fun_prop : Continuous fun x => sin (((n + 1 : ℕ) : ℝ) * mu) * (kjDensity mu rho rho 0 x * sin (((n + 1 : ℕ) : ℝ) * x))).intervalIntegrable _ _),
    intervalIntegral.integral_const_mul, intervalIntegral.integral_const_mul, kj_moment_cos h0 h1, kj_moment_sin h0 h1]
  push_cast
  have := sin_sq_add_cos_sq (((n : ℝ) + 1) * mu)
  rw [mul_zero, add_zero, pow_succ]
  linear_combination (rho * rho ^ n) * this

/-- **C104.** For `psi = -1` (the wrapped Cauchy density with `rho = tanh(κ/2)`) the error of the cdf is at
most `2e-9 + 4 ρ^257/(1-ρ)`. -/
theorem C104_wrapcauchy_cdf (E : JPEnv) (hl : LpmvExact E.lpmv) {mu kappa x : ℝ} (hm0 : 0 ≤ mu) (hm1 : mu ≤ 2 * π)
    (hk : 1 / 10 ^ 3 ≤ kappa) (hk1 : kappa ≤ 700) (hx : RegularAngle x) :
    let rho := tanh (kappa / 2)
    ∃ v, distCdf (jonespewsey E) x ⟨mu, kappa, -1⟩ = some v ∧
      |v - ∫ t in (0 : ℝ)..x, (1 - rho ^ 2) / (2 * π * (1 + rho ^ 2 - 2 * rho * cos (t - mu)))|
        ≤ 2 / 10 ^ 9 + 4 * (rho ^ 257 / (1 - rho)) := by
  have hk0 : 0 < kappa := lt_of_lt_of_le (by norm_num) hk
  have hka : |kappa * -1| ≤ 700 := by rw [mul_neg_one, abs_neg, abs_of_pos hk0]; exact hk1
  have t0 : 0 < tanh (kappa / 2) := tanh_pos' (by linarith)
  have t1 := tanh_lt_one (kappa / 2)
  intro rho
  obtain ⟨-, h⟩ := C104_cdf_error E hl hm0 hm1 hk (psi := -1) (by norm_num) hka
  obtain ⟨v, hv, hb⟩ := h x hx
  refine ⟨v, hv, ?_⟩
  have hf : ∀ t, jpShape kappa (-1) (t - mu) / ∫ t in (0 : ℝ)..(2 * π), jpShape kappa (-1) (t - mu) = wcPdf t mu rho := by
    intro t
    have h1 : jpPdf E.lpmv t mu kappa (-1) = wcPdf t mu rho := jp_wrapcauchy_pdf hl hk hk1 t
    rw [← h1, jpPdf_eq hl hk hka]
    simp only [jpShape_kernel (Or.inl (show (1 : ℝ) / 10 ^ 6 ≤ |(-1 : ℝ)| by norm_num)) hka]
  simp only [hf] at hb
  have e : ∀ n : ℕ, |∫ t in (0 : ℝ)..(2 * π), wcPdf t mu rho * cos (((n + 257 : ℕ) : ℝ) * (t - mu))| = rho ^ 257 * rho ^ n := by
    intro n
    rw [show n + 257 = n + 256 + 1 by ring, wc_cos_moment t0.le t1, abs_of_nonneg (pow_nonneg t0.le _)]
    ring
  simp only [e] at hb
  rw [tsum_mul_left, tsum_geometric_of_lt_one t0.le t1, ← div_eq_mul_inv] at hb
  exact hb

/-! ## C77: the sine-skewed family -/

/-- **C77.** The density is the symmetric density times `1 + λ sin(x - ξ)`, for all accepted parameters. -/
theorem C77_density (E : JPEnv) {xi kappa psi lmbd x : ℝ} (hx0 : 0 ≤ xi) (hx1 : xi ≤ 2 * π) (hk : 0 ≤ kappa)
    (hl : |lmbd| ≤ 1) (hx : RegularAngle x) :
    ∃ v, distPdf (jonespewsey E) x ⟨xi, kappa, psi⟩ = some v ∧
      distPdf (jonespewseySineskewed E) x ⟨xi, kappa, psi, lmbd⟩ = some (v * (1 + lmbd * sin (x - xi))) := by
  have ha : (jonespewsey E).argcheck ⟨xi, kappa, psi⟩ := ⟨⟨hx0, hx1⟩, hk⟩
  have hb : (jonespewseySineskewed E).argcheck ⟨xi, kappa, psi, lmbd⟩ := ⟨⟨hx0, hx1⟩, hk, (abs_le.1 hl).1, (abs_le.1 hl).2⟩
  refine ⟨_, distPdf_regular _ ha hx, ?_⟩
  rw [distPdf_regular _ hb hx]
  congr 1
  show jssPdf E.lpmv x ⟨xi, kappa, psi, lmbd⟩ = jpPdf E.lpmv x xi kappa psi * _
  unfold jssPdf jpPdf
  simp only
  split_ifs with h1 h2
  · rfl
  · congr 2
    unfold jpKernel
    rw [if_pos h2]
  · rfl

/-- **C77.** The result is a probability density again: non-negative, with the mass of the symmetric
density, which is 1 (for `kappa` below `1e-3` the base density is uniform). -/
theorem C77_is_density (E : JPEnv) (hl : LpmvExact E.lpmv) {xi kappa psi lmbd : ℝ} (hx0 : 0 ≤ xi) (hx1 : xi ≤ 2 * π) (hk : 0 ≤ kappa)
    (hpsi : 1 / 10 ^ 6 ≤ |psi| ∨ psi = 0) (hA : |kappa * psi| ≤ 700) (hla : |lmbd| ≤ 1) :
    let f := fun x => (if kappa < 1 / 10 ^ 3 then 1 / (2 * π)
      else jpShape kappa psi (x - xi) / ∫ t in (0 : ℝ)..(2 * π), jpShape kappa psi (t - xi)) * (1 + lmbd * sin (x - xi))
    IsCircularDensity f ∧
    ∀ x, RegularAngle x → distPdf (jonespewseySineskewed E) x ⟨xi, kappa, psi, lmbd⟩ = some (f x) := by
  have hb : (jonespewseySineskewed E).argcheck ⟨xi, kappa, psi, lmbd⟩ := ⟨⟨hx0, hx1⟩, hk, (abs_le.1 hla).1, (abs_le.1 hla).2⟩
  have hpi := pi_pos
  by_cases h : kappa < 1 / 10 ^ 3
  · simp only [if_pos h]
    refine ⟨skew_isCircularDensity (g := fun _ => 1 / (2 * π)) continuous_const (fun _ => rfl) (fun _ => rfl)
      (fun _ => by positivity) ?_ xi hla, fun x hx => ?_⟩
    · rw [intervalIntegral.integral_const, smul_eq_mul, sub_zero]
      field_simp
    · rw [distPdf_regular _ hb hx]
      show some (jssPdf E.lpmv x ⟨xi, kappa, psi, lmbd⟩) = _
      unfold jssPdf
      rw [if_pos (by rw [abs_of_nonneg hk]; exact h)]
  · simp only [if_neg h]
    obtain ⟨h1, h2, h3, h4, h5⟩ := jpUnit_props hpsi hA
    simp only [← jpUnit_eq_shape hpsi hA xi]
    refine ⟨skew_isCircularDensity h1.continuous h2 h3 h4 h5 xi hla, fun x hx => ?_⟩
    obtain ⟨v, hv, hw⟩ := C77_density E (psi := psi) hx0 hx1 hk hla hx
    rw [hw]
    rw [distPdf_regular _ (show (jonespewsey E).argcheck ⟨xi, kappa, psi⟩ from ⟨⟨hx0, hx1⟩, hk⟩) hx] at hv
    have : v = jpPdf E.lpmv x xi kappa psi := (Option.some.inj hv).symm
    rw [this, jpPdf_eq hl (not_lt.1 h) hA, jpUnit_shift]

/-- **C77.** With `lmbd = 0` and `kappa` from `1e-3` on, density and cdf are those of the symmetric family. -/
theorem C77_symmetric (E : JPEnv) {xi kappa psi x : ℝ} (hx0 : 0 ≤ xi) (hx1 : xi ≤ 2 * π) (hk : 1 / 10 ^ 3 ≤ kappa)
    (hx : RegularAngle x) :
    distPdf (jonespewseySineskewed E) x ⟨xi, kappa, psi, 0⟩ = distPdf (jonespewsey E) x ⟨xi, kappa, psi⟩ ∧
    distCdf (jonespewseySineskewed E) x ⟨xi, kappa, psi, 0⟩ = distCdf (jonespewsey E) x ⟨xi, kappa, psi⟩ := by
  have hk0 : 0 < kappa := lt_of_lt_of_le (by norm_num) hk
  have ha : (jonespewsey E).argcheck ⟨xi, kappa, psi⟩ := ⟨⟨hx0, hx1⟩, hk0.le⟩
  have hb : (jonespewseySineskewed E).argcheck ⟨xi, kappa, psi, 0⟩ := ⟨⟨hx0, hx1⟩, hk0.le, by norm_num, by norm_num⟩
  constructor
  · obtain ⟨v, hv, hw⟩ := C77_density E (psi := psi) (lmbd := 0) hx0 hx1 hk0.le (by simp) hx
    rw [hv, hw]
    simp
  · unfold distCdf
    rw [if_neg (not_not.2 ha), if_neg (not_not.2 hb), regular_wrap hx]
    split_ifs with h1 h2
    · rfl
    · congr 1
      show jssCdf E x ⟨xi, kappa, psi, 0⟩ = jpCdf E x ⟨xi, kappa, psi⟩
      have hjp : distCdf (jonespewsey E) x ⟨xi, kappa, psi⟩ = some (jpCdf E x ⟨xi, kappa, psi⟩) := by
        unfold distCdf
        rw [if_neg (not_not.2 ha), regular_wrap hx, if_neg h1, if_pos h2]
        rfl
      unfold jssCdf
      simp only
      rw [if_neg (not_lt.2 (show jpKappaTol ≤ kappa from hk)), regular_wrap hx, hjp]
      split_ifs with h3
      · rfl
      · have h4 : ¬ |psi| < jpPsiTol := fun h => h3 ⟨h, by rw [abs_zero]; positivity⟩
        unfold jpCdf
        simp only
        rw [if_neg (not_lt.2 (show jpKappaTol ≤ kappa from hk)), if_neg h4, regular_wrap hx,
          jpSeriesCdf_eq _ _ h2.le (not_le.1 h1), jssSeriesCdf_eq _ _ _ h2.le (not_le.1 h1)]
        simp
    · rfl

/-- **C77.** Accuracy of the cdf, for `kappa` from `1e-3` on: within `(1 + |λ|)` times (`2e-9` plus four
times the sum of the symmetric density's cosine moments beyond the 256th) of the exact distribution
function. (With `psi = 0` and `|λ| < 1e-12` the von Mises cdf is used instead.) -/
theorem C77_cdf_error (E : JPEnv) (hl : LpmvExact E.lpmv) {xi kappa psi lmbd : ℝ} (hx0 : 0 ≤ xi) (hx1 : xi ≤ 2 * π)
    (hk : 1 / 10 ^ 3 ≤ kappa) (hpsi : 1 / 10 ^ 6 ≤ |psi| ∨ (psi = 0 ∧ 1 / 10 ^ 12 ≤ |lmbd|)) (hA : |kappa * psi| ≤ 700)
    (hla : |lmbd| ≤ 1) :
    let f0 := fun x => jpShape kappa psi (x - xi) / ∫ t in (0 : ℝ)..(2 * π), jpShape kappa psi (t - xi)
    let tail := fun n : ℕ => |∫ t in (0 : ℝ)..(2 * π), f0 t * cos (((n + 257 : ℕ) : ℝ) * (t - xi))|
    Summable tail ∧ ∀ x, RegularAngle x → ∃ v, distCdf (jonespewseySineskewed E) x ⟨xi, kappa, psi, lmbd⟩ = some v ∧
      |v - ∫ t in (0 : ℝ)..x, f0 t * (1 + lmbd * sin (t - xi))| ≤ (1 + |lmbd|) * (2 / 10 ^ 9 + 4 * ∑' n, tail n) := by
  have hk0 : 0 < kappa := lt_of_lt_of_le (by norm_num) hk
  have hpsi' : 1 / 10 ^ 6 ≤ |psi| ∨ psi = 0 := hpsi.imp_right And.left
  obtain ⟨h1, h2, h3, h4, h5⟩ := jpUnit_props hpsi' hA
  intro f tail
  have hf : ∀ x, f x = jpUnit kappa psi (x - xi) := fun x => (jpUnit_eq_shape hpsi' hA xi x).symm
  have ht : tail = fun n => |cosCoeff (jpUnit kappa psi) (n + 257)| := by
    funext n
    show |_| = |_|
    rw [cosCoeff_shift h2 xi]
    simp only [hf]
  have hsum : Summable tail := by
    rw [ht]
    exact (summable_nat_add_iff (f := fun n => |cosCoeff (jpUnit kappa psi) n|) 257).2 (cos_coeff_summable h1 h2)
  have hT : 0 ≤ ∑' n, tail n := tsum_nonneg fun n => abs_nonneg _
  have ha : (jonespewseySineskewed E).argcheck ⟨xi, kappa, psi, lmbd⟩ := ⟨⟨hx0, hx1⟩, hk0.le, (abs_le.1 hla).1, (abs_le.1 hla).2⟩
  refine ⟨hsum, fun x hx => ?_⟩
  unfold distCdf
  rw [if_neg (not_not.2 ha), regular_wrap hx]
  have hd := skew_isCircularDensity h1.continuous h2 h3 h4 h5 xi hla
  have hR : 0 ≤ (1 + |lmbd|) * (2 / 10 ^ 9 + 4 * ∑' n, tail n) := by positivity
  simp only [hf]
  split_ifs with hx1 hx2
  · have : x = 2 * π := le_antisymm (regular_le hx) hx1
    refine ⟨1, rfl, ?_⟩
    rw [this, hd.mass, sub_self, abs_zero]
    exact hR
  · refine ⟨_, rfl, ?_⟩
    have := jss_cdf_core E hl (xi := xi) hk hpsi' hA hla hx2.le (not_le.1 hx1)
    rw [← ht] at this
    have e : (jonespewseySineskewed E).cdf x ⟨xi, kappa, psi, lmbd⟩
        = jssSeriesCdf (jpCosCoeff E.lpmv kappa psi) (jpKept (jpCosCoeff E.lpmv kappa psi)) x xi lmbd := by
      show jssCdf E x ⟨xi, kappa, psi, lmbd⟩ = _
      unfold jssCdf
      simp only
      rw [if_neg (not_lt.2 (show jpKappaTol ≤ kappa from hk)), if_neg, regular_wrap hx]
      rintro ⟨a, b⟩
      rcases hpsi with h | h
      · exact absurd a (not_lt.2 h)
      · exact absurd b (not_lt.2 h.2)
    rw [e]
    exact this
  · have : x = 0 := le_antisymm (not_lt.1 hx2) hx.1
    refine ⟨0, rfl, ?_⟩
    rw [this]
    simp only [intervalIntegral.integral_same, sub_self, abs_zero]
    exact hR

theorem jss_small_integral (xi lmbd a b : ℝ) :
    ∫ t in a..b, 1 / (2 * π) * (1 + lmbd * sin (t - xi)) = (b - a + lmbd * (cos (a - xi) - cos (b - xi))) / (2 * π) := by
  have hpi := pi_pos
  have hd : ∀ t, HasDerivAt (fun t => 1 / (2 * π) * (t - lmbd * cos (t - xi))) (1 / (2 * π) * (1 + lmbd * sin (t - xi))) t := by
    intro t
    have h := ((hasDerivAt_id' t).fun_sub ((((hasDerivAt_id' t).sub_const xi).cos).const_mul lmbd)).const_mul (1 / (2 * π))
    refine h.congr_deriv ?_
    ring
  rw [intervalIntegral.integral_eq_sub_of_hasDerivAt (fun t _ => hd t)
    ((by fun_prop : Continuous fun t => 1 / (2 * π) * (1 + lmbd * sin (t - xi))).intervalIntegrable _ _)]
  field_simp
  ring

/-- **C77 (a failure).** For `kappa` below `1e-3` the cdf method returns the probability of the arc from `xi`
to `x`, not of the arc from 0 to `x`. -/
theorem C77_small_kappa_cdf (E : JPEnv) {xi kappa psi lmbd x : ℝ} (hx0 : 0 ≤ xi) (hx1 : xi ≤ 2 * π) (hk0 : 0 ≤ kappa)
    (hk : kappa < 1 / 10 ^ 3) (hla : |lmbd| ≤ 1) (hx : 0 < x) (hx' : x ≤ 2 * π - 1 / 10 ^ 14) :
    distCdf (jonespewseySineskewed E) x ⟨xi, kappa, psi, lmbd⟩ =
      some (∫ t in xi..(if xi ≤ x then x else x + 2 * π), 1 / (2 * π) * (1 + lmbd * sin (t - xi))) := by
  have hp := two_pi_pos
  have hpi := pi_pos
  have h14 : (0 : ℝ) < 1 / 10 ^ 14 := by positivity
  have ha : (jonespewseySineskewed E).argcheck ⟨xi, kappa, psi, lmbd⟩ := ⟨⟨hx0, hx1⟩, hk0, (abs_le.1 hla).1, (abs_le.1 hla).2⟩
  have hw : wrap2pi x = x := regular_wrap ⟨hx.le, Or.inl hx'⟩
  unfold distCdf
  rw [if_neg (not_not.2 ha), hw, if_neg (by linarith), if_pos hx]
  congr 1
  show jssCdf E x ⟨xi, kappa, psi, lmbd⟩ = _
  unfold jssCdf
  simp only
  rw [if_pos (show kappa < jpKappaTol from hk), hw, jss_small_integral, sub_self, cos_zero]
  have key : ∀ p, 0 ≤ p → p ≤ 2 * π → clip (p / (2 * π) + lmbd * ((1 - cos p) / (2 * π))) 0 1 = (p + lmbd * (1 - cos p)) / (2 * π) := by
    intro p p0 p1
    have hd := skew_isCircularDensity (g := fun _ => 1 / (2 * π)) continuous_const (fun _ => rfl) (fun _ => rfl)
      (fun _ => by positivity) (by rw [intervalIntegral.integral_const, smul_eq_mul, sub_zero]; field_simp) 0 hla
    have e := jss_small_integral 0 lmbd 0 p
    rw [sub_zero, sub_zero, cos_zero] at e
    have i0 : 0 ≤ ∫ t in (0 : ℝ)..p, 1 / (2 * π) * (1 + lmbd * sin (t - 0)) :=
      intervalIntegral.integral_nonneg p0 fun t ht => hd.nonneg t ht.1 (by linarith [ht.2])
    have i1 : ∫ t in (0 : ℝ)..p, 1 / (2 * π) * (1 + lmbd * sin (t - 0)) ≤ 1 := by
      refine le_trans ?_ hd.mass.le
      exact intervalIntegral.integral_mono_interval le_rfl p0 p1
        ((ae_restrict_iff' measurableSet_Ioc).2 (Filter.Eventually.of_forall fun t ht =>
          hd.nonneg t ht.1.le ht.2)) hd.integrable
    rw [e] at i0 i1
    rw [← mul_div_assoc, ← add_div]
    unfold clip
    rw [max_eq_left i0, min_eq_left i1]
  split_ifs with h
  · rw [pymod_eq_self hp (by linarith) (by linarith), key _ (by linarith) (by linarith)]
  · have hm : pymod (x - xi) (2 * π) = x + 2 * π - xi :=
      (pymod_eq_iff hp).mpr ⟨by linarith, by linarith [not_le.1 h], ⟨1, by push_cast; ring⟩⟩
    rw [hm, key _ (by linarith) (by linarith [not_le.1 h])]

/-- **C77 (a failure).** At `x = xi = π` it is 0, although the arc from 0 to `π` has probability
`1/2 - λ/π > 0`; so the method is not the distribution function of its density. -/
theorem C77_small_kappa_cdf_wrong (E : JPEnv) {kappa psi lmbd : ℝ} (hk0 : 0 ≤ kappa) (hk : kappa < 1 / 10 ^ 3) (hla : |lmbd| ≤ 1) :
    distCdf (jonespewseySineskewed E) π ⟨π, kappa, psi, lmbd⟩ = some 0 ∧
    0 < ∫ t in (0 : ℝ)..π, 1 / (2 * π) * (1 + lmbd * sin (t - π)) := by
  have hpi := pi_gt_three
  have h14 : (1 : ℝ) / 10 ^ 14 < 1 := by norm_num
  constructor
  · rw [C77_small_kappa_cdf E pi_pos.le (by linarith) hk0 hk hla pi_pos (by linarith), if_pos le_rfl, intervalIntegral.integral_same]
  · rw [jss_small_integral, zero_sub, cos_neg, cos_pi, sub_self, cos_zero]
    have := (abs_le.1 hla).2
    exact div_pos (by linarith) (by linarith)

/-- **C77.** With `xi = 0` the small-`kappa` cdf is right. -/
theorem C77_small_kappa_origin (E : JPEnv) {kappa psi lmbd x : ℝ} (hk0 : 0 ≤ kappa) (hk : kappa < 1 / 10 ^ 3) (hla : |lmbd| ≤ 1)
    (hx : 0 < x) (hx' : x ≤ 2 * π - 1 / 10 ^ 14) :
    distCdf (jonespewseySineskewed E) x ⟨0, kappa, psi, lmbd⟩ =
      some (∫ t in (0 : ℝ)..x, 1 / (2 * π) * (1 + lmbd * sin (t - 0))) := by
  rw [C77_small_kappa_cdf E le_rfl two_pi_pos.le hk0 hk hla hx hx', if_pos hx.le]

/-- **C77 (a failure).** For `kappa` below `1e-3` the quantile of `q` is `2πq` whatever `xi` and `lmbd`; the
probability of the arc up to it misses `q` by `λ (cos ξ - cos(2πq - ξ))/(2π)`. -/
theorem C77_small_kappa_ppf (E : JPEnv) {xi kappa psi lmbd q : ℝ} (hk : kappa < 1 / 10 ^ 3)
    (hq0 : 1 / 10 ^ 15 ≤ q) (hq1 : q ≤ 1 - 1 / 10 ^ 15) :
    jssPpf E [q] ⟨xi, kappa, psi, lmbd⟩ = [2 * π * q] ∧
    (∫ t in (0 : ℝ)..(2 * π * q), 1 / (2 * π) * (1 + lmbd * sin (t - xi)))
      = q + lmbd * (cos xi - cos (2 * π * q - xi)) / (2 * π) := by
  have hpi := pi_pos
  constructor
  · unfold jssPpf
    simp only
    rw [if_pos (show kappa < jpKappaTol from hk)]
    simp only [List.map_cons, List.map_nil]
    unfold clip
    rw [max_eq_left hq0, min_eq_left hq1]
  · rw [jss_small_integral, zero_sub, cos_neg, sub_zero]
    field_simp

/-! ### The sampler -/

/-- **C77.** The sampler refuses `|λ| = 1`, although such parameters are accepted by `pdf`. -/
theorem C77_sampler_refuses (E : JPEnv) {xi kappa psi : ℝ} (hx0 : 0 ≤ xi) (hx1 : xi ≤ 2 * π) (hk : 0 ≤ kappa)
    (trials : List (ℝ × ℝ)) :
    jssRvs ⟨xi, kappa, psi, 1⟩ trials = .error .valueError ∧ jssRvs ⟨xi, kappa, psi, -1⟩ trials = .error .valueError ∧
    ∀ x, RegularAngle x → (∃ v, distPdf (jonespewseySineskewed E) x ⟨xi, kappa, psi, 1⟩ = some v) ∧
      ∃ v, distPdf (jonespewseySineskewed E) x ⟨xi, kappa, psi, -1⟩ = some v := by
  refine ⟨?_, ?_, fun x hx => ⟨?_, ?_⟩⟩
  · unfold jssRvs; rw [if_pos (by norm_num)]
  · unfold jssRvs; rw [if_pos (by norm_num)]
  · obtain ⟨v, -, h⟩ := C77_density E (psi := psi) (lmbd := 1) hx0 hx1 hk (by norm_num) hx
    exact ⟨_, h⟩
  · obtain ⟨v, -, h⟩ := C77_density E (psi := psi) (lmbd := -1) hx0 hx1 hk (by norm_num) hx
    exact ⟨_, h⟩

/-- **C77.** The value returned is the first accepted proposal: a proposal, unchanged. -/
theorem C77_sampler_first (s : JSS) (trials : List (ℝ × ℝ)) (theta : ℝ) (h : jssRvs s trials = .ok (some theta)) :
    ∃ before u after, trials = before ++ (theta, u) :: after ∧
      u ≤ (1 + s.lmbd * sin (theta - s.xi)) / (1 + |s.lmbd|) ∧
      ∀ p ∈ before, (1 + s.lmbd * sin (p.1 - s.xi)) / (1 + |s.lmbd|) < p.2 := by
  have hsin : ∀ t, sin (t - pymod s.xi (2 * π)) = sin (t - s.xi) := by
    intro t
    obtain ⟨k, hk⟩ := pymod_cong s.xi (2 * π)
    rw [hk, show t - (s.xi + k * (2 * π)) = t - s.xi - k * (2 * π) by ring, sin_sub_int_mul_two_pi]
  unfold jssRvs at h
  split_ifs at h with h1
  injection h with h
  clear h1
  induction trials with
  | nil => cases h
  | cons p ps ih =>
    rw [List.findSome?_cons] at h
    by_cases hp : p.2 ≤ (1 + s.lmbd * sin (p.1 - s.xi)) / (1 + |s.lmbd|)
    · have e : jssTrial s p.1 p.2 = some p.1 := by unfold jssTrial; rw [hsin, if_pos hp]
      rw [e] at h
      have : p.1 = theta := Option.some.inj h
      exact ⟨[], p.2, ps, by rw [← this]; rfl, by rw [← this]; exact hp, by simp⟩
    · have e : jssTrial s p.1 p.2 = none := by unfold jssTrial; rw [hsin, if_neg hp]
      rw [e] at h
      obtain ⟨b, u, a, h1, h2, h3⟩ := ih h
      refine ⟨p :: b, u, a, by rw [h1]; rfl, h2, fun r hr => ?_⟩
      rcases List.mem_cons.1 hr with rfl | hr
      · exact not_le.1 hp
      · exact h3 r hr

/-- **C77.** With the proposal drawn from a density `f0` and a uniform `u`, the probability that a trial is
accepted with a value in `[0, x]` is `1/(1+|λ|)` times the probability of `[0, x]` under the skewed density
`f0 (1 + λ sin(· - ξ))`: accepted values follow the skewed density. -/
theorem C77_sampler_law (s : JSS) (hl : |s.lmbd| < 1) (f0 : ℝ → ℝ) (x : ℝ) :
    ∫ theta in (0 : ℝ)..x, f0 theta * volume.real {u : ℝ | 0 ≤ u ∧ u < 1 ∧ jssTrial s theta u = some theta}
      = 1 / (1 + |s.lmbd|) * ∫ theta in (0 : ℝ)..x, f0 theta * (1 + s.lmbd * sin (theta - s.xi)) := by
  rw [← intervalIntegral.integral_const_mul]
  refine intervalIntegral.integral_congr fun theta _ => ?_
  have hsin : sin (theta - pymod s.xi (2 * π)) = sin (theta - s.xi) := by
    obtain ⟨k, hk⟩ := pymod_cong s.xi (2 * π)
    rw [hk, show theta - (s.xi + k * (2 * π)) = theta - s.xi - k * (2 * π) by ring, sin_sub_int_mul_two_pi]
  have hpos : 0 < 1 + |s.lmbd| := by positivity
  obtain ⟨b0, b1⟩ := skew_factor hl.le (theta - s.xi)
  obtain ⟨p, hp⟩ : ∃ p, (1 + s.lmbd * sin (theta - s.xi)) / (1 + |s.lmbd|) = p := ⟨_, rfl⟩
  have p0 : 0 ≤ p := by rw [← hp]; positivity
  have p1 : p ≤ 1 := by rw [← hp]; exact (div_le_one hpos).2 b1
  have hset : volume.real {u : ℝ | 0 ≤ u ∧ u < 1 ∧ jssTrial s theta u = some theta} = p := by
    have h1 : ∀ u, jssTrial s theta u = some theta ↔ u ≤ p := by
      intro u
      unfold jssTrial
      rw [hsin, hp]
      split_ifs with h <;> simp [h]
    simp only [h1]
    have hle : volume {u : ℝ | 0 ≤ u ∧ u < 1 ∧ u ≤ p} ≤ ENNReal.ofReal p := by
      refine (measure_mono (t := Set.Icc 0 p) fun u hu => ⟨hu.1, hu.2.2⟩).trans ?_
      rw [Real.volume_Icc, sub_zero]
    have hge : ENNReal.ofReal p ≤ volume {u : ℝ | 0 ≤ u ∧ u < 1 ∧ u ≤ p} := by
      refine le_trans ?_ (measure_mono (s := Set.Ico 0 p) fun u hu => ⟨hu.1, hu.2.trans_le p1, hu.2.le⟩)
      rw [Real.volume_Ico, sub_zero]
    rw [measureReal_def, le_antisymm hle hge, ENNReal.toReal_ofReal p0]
  rw [hset, ← hp]
  ring

/-! ### A concrete case -/

/-- A Legendre function that is exact where it answers: the hypotheses of C104 and C77 can be met. -/
example : LpmvExact fun nu z => some (legendreP nu z) := fun _ _ _ _ h => (Option.some.inj h).symm

example : ∃ v, distCdf (jonespewsey ⟨fun nu z => some (legendreP nu z), fun _ => 0, fun _ _ _ => 0⟩) 1 ⟨1, 2, -1⟩ = some v :=
  let ⟨v, h, _⟩ := C104_wrapcauchy_cdf ⟨fun nu z => some (legendreP nu z), fun _ => 0, fun _ _ _ => 0⟩
    (fun _ _ _ _ h => (Option.some.inj h).symm) (mu := 1) (kappa := 2) (x := 1) (by norm_num) (by linarith [pi_gt_three])
    (by norm_num) (by norm_num) ⟨by norm_num, Or.inl (by have := pi_gt_three; norm_num; linarith)⟩
  ⟨v, h⟩

example : IsCircularDensity fun x => (if (2 : ℝ) < 1 / 10 ^ 3 then 1 / (2 * π)
    else jpShape 2 (1 / 2) (x - 1) / ∫ t in (0 : ℝ)..(2 * π), jpShape 2 (1 / 2) (t - 1)) * (1 + -(1 / 2) * sin (x - 1)) :=
  (C77_is_density ⟨fun nu z => some (legendreP nu z), fun _ => 0, fun _ _ _ => 0⟩
    (fun _ _ _ _ h => (Option.some.inj h).symm) (xi := 1) (kappa := 2) (psi := 1 / 2) (lmbd := -(1 / 2)) (by norm_num)
    (by linarith [pi_gt_three]) (by norm_num) (Or.inl (by norm_num)) (by norm_num) (by norm_num)).1

/-! ## C82: quantiles -/

theorem jp_ppf_core {F f : ℝ → ℝ} (qs : List ℝ) :
    let init := (qs.map fun q => clip q (1 / 10 ^ 15) (1 - 1 / 10 ^ 15)).map fun q => (q, 2 * π * q)
    (brSolve F f (fun x => clip x 0 (2 * π)) 8 30 init).length = qs.length ∧
    ∀ (i : ℕ) (q theta : ℝ), qs[i]? = some q → (brSolve F f (fun x => clip x 0 (2 * π)) 8 30 init)[i]? = some theta →
      SolvesQuantile F (clip q (1 / 10 ^ 15) (1 - 1 / 10 ^ 15)) (2 * π / 2 ^ 30) theta := by
  intro init
  have hp := two_pi_pos
  have h15 : (0 : ℝ) < 1 / 10 ^ 15 := by positivity
  obtain ⟨h1, h2⟩ := C82_solver F f (fun x => clip x 0 (2 * π))
    (fun x h0 h1 => by unfold clip; rw [max_eq_left h0, min_eq_left h1.le]) 8 30 init (by
      intro p hpm
      obtain ⟨q, hq, rfl⟩ := List.mem_map.1 hpm
      obtain ⟨r, -, rfl⟩ := List.mem_map.1 hq
      have := clip_mem (v := r) (lo := 1 / 10 ^ 15) (hi := 1 - 1 / 10 ^ 15) (by norm_num)
      exact ⟨mul_nonneg hp.le (by linarith), by show 2 * π * _ < 2 * π; nlinarith⟩)
  refine ⟨by rw [h1]; simp [init], fun i q theta hq ht => h2 i _ (2 * π * clip q (1 / 10 ^ 15) (1 - 1 / 10 ^ 15)) theta ?_ ht⟩
  simp [init, hq]

/-- **C82.** The quantile method of the Jones-Pewsey family (`kappa` from `1e-3` on, `|psi|` from `1e-6` on)
returns, for each probability, an angle of `[0, 2π)` where the cdf is within `1e-12` of the probability or
that is the midpoint of a bracket of width `2π/2^30` whose ends are on either side of it. -/
theorem C82_jonespewsey (E : JPEnv) {mu kappa psi : ℝ} (hk : 1 / 10 ^ 3 ≤ kappa) (hpsi : 1 / 10 ^ 6 ≤ |psi|) (qs : List ℝ) :
    (jpPpf E qs ⟨mu, kappa, psi⟩).length = qs.length ∧
    ∀ (i : ℕ) (q theta : ℝ), 1 / 10 ^ 15 ≤ q → q ≤ 1 - 1 / 10 ^ 15 → qs[i]? = some q →
      (jpPpf E qs ⟨mu, kappa, psi⟩)[i]? = some theta →
      SolvesQuantile (fun t => (distCdf (jonespewsey E) t ⟨mu, kappa, psi⟩).getD 0) q (2 * π / 2 ^ 30) theta := by
  have e : jpPpf E qs ⟨mu, kappa, psi⟩ = brSolve (fun t => (distCdf (jonespewsey E) t ⟨mu, kappa, psi⟩).getD 0)
      (fun t => (distPdf (jonespewsey E) t ⟨mu, kappa, psi⟩).getD 0) (fun x => clip x 0 (2 * π)) 8 30
      ((qs.map fun q => clip q (1 / 10 ^ 15) (1 - 1 / 10 ^ 15)).map fun q => (q, 2 * π * q)) := by
    unfold jpPpf
    simp only
    rw [if_neg (not_lt.2 (show jpKappaTol ≤ kappa from hk)), if_neg (not_lt.2 (show jpPsiTol ≤ |psi| from hpsi))]
  rw [e]
  obtain ⟨h1, h2⟩ := jp_ppf_core (F := fun t => (distCdf (jonespewsey E) t ⟨mu, kappa, psi⟩).getD 0)
    (f := fun t => (distPdf (jonespewsey E) t ⟨mu, kappa, psi⟩).getD 0) qs
  refine ⟨h1, fun i q theta hq0 hq1 hq ht => ?_⟩
  have := h2 i q theta hq ht
  rwa [show clip q (1 / 10 ^ 15) (1 - 1 / 10 ^ 15) = q by unfold clip; rw [max_eq_left hq0, min_eq_left hq1]] at this

/-- **C82.** The same for the sine-skewed family, for `xi` in `[0, 2π)`, `|λ|` from `1e-12` on. -/
theorem C82_jonespewsey_sineskewed (E : JPEnv) {xi kappa psi lmbd : ℝ} (hx0 : 0 ≤ xi) (hx1 : xi < 2 * π)
    (hk : 1 / 10 ^ 3 ≤ kappa) (hl : 1 / 10 ^ 12 ≤ |lmbd|) (qs : List ℝ) :
    (jssPpf E qs ⟨xi, kappa, psi, lmbd⟩).length = qs.length ∧
    ∀ (i : ℕ) (q theta : ℝ), 1 / 10 ^ 15 ≤ q → q ≤ 1 - 1 / 10 ^ 15 → qs[i]? = some q →
      (jssPpf E qs ⟨xi, kappa, psi, lmbd⟩)[i]? = some theta →
      SolvesQuantile (fun t => (distCdf (jonespewseySineskewed E) t ⟨xi, kappa, psi, lmbd⟩).getD 0) q (2 * π / 2 ^ 30) theta := by
  have e : jssPpf E qs ⟨xi, kappa, psi, lmbd⟩ = brSolve (fun t => (distCdf (jonespewseySineskewed E) t ⟨xi, kappa, psi, lmbd⟩).getD 0)
      (fun t => (distPdf (jonespewseySineskewed E) t ⟨xi, kappa, psi, lmbd⟩).getD 0) (fun x => clip x 0 (2 * π)) 8 30
      ((qs.map fun q => clip q (1 / 10 ^ 15) (1 - 1 / 10 ^ 15)).map fun q => (q, 2 * π * q)) := by
    unfold jssPpf
    simp only
    rw [if_neg (not_lt.2 (show jpKappaTol ≤ kappa from hk)), if_neg (not_lt.2 hl), pymod_eq_self two_pi_pos hx0 hx1]
  rw [e]
  obtain ⟨h1, h2⟩ := jp_ppf_core (F := fun t => (distCdf (jonespewseySineskewed E) t ⟨xi, kappa, psi, lmbd⟩).getD 0)
    (f := fun t => (distPdf (jonespewseySineskewed E) t ⟨xi, kappa, psi, lmbd⟩).getD 0) qs
  refine ⟨h1, fun i q theta hq0 hq1 hq ht => ?_⟩
  have := h2 i q theta hq ht
  rwa [show clip q (1 / 10 ^ 15) (1 - 1 / 10 ^ 15) = q by unfold clip; rw [max_eq_left hq0, min_eq_left hq1]] at this

/-! ## C83: estimation -/

theorem jpFit_mem (E : JPEnv) (minimize : (JP → Option ℝ) → JP → MinResult 3) (rnd : ℝ → ℤ)
    (data : List ℝ) (weights : Option (List ℝ)) (method : String) (kb pb : ℝ × ℝ) (hkb : kb.1 ≤ kb.2) (hpb : pb.1 ≤ pb.2) (s : JP)
    (h : jpFit E minimize rnd data weights method kb pb = .ok s) :
    (0 ≤ s.mu ∧ s.mu ≤ 2 * π) ∧ (kb.1 ≤ s.kappa ∧ s.kappa ≤ kb.2) ∧ ((pb.1 ≤ s.psi ∧ s.psi ≤ pb.2) ∨ s.psi = 0) := by
  unfold jpFit at h
  simp only at h
  rcases hw : fitWeights (data.map wrap2pi).length weights with e | w
  · rw [hw] at h
    split_ifs at h <;> cases h
  · rw [hw] at h
    simp only [bind, Except.bind] at h
    split_ifs at h <;> cases h
    all_goals first
      | exact ⟨wrap2pi_mem _, clip_mem hkb, Or.inr rfl⟩
      | exact ⟨wrap2pi_mem _, clip_mem hkb, Or.inl (clip_mem hpb)⟩

/-- **C83.** Whatever the optimiser answers, an estimate of the Jones-Pewsey fit lies within the bounds given
and is accepted by the distribution. -/
theorem C83_jonespewsey (E : JPEnv) (minimize : (JP → Option ℝ) → JP → MinResult 3) (rnd : ℝ → ℤ)
    (data : List ℝ) (weights : Option (List ℝ)) (method : String) (kb pb : ℝ × ℝ) (hk0 : 0 ≤ kb.1) (hkb : kb.1 ≤ kb.2)
    (hpb : pb.1 ≤ pb.2) (s : JP) (h : jpFit E minimize rnd data weights method kb pb = .ok s) :
    (0 ≤ s.mu ∧ s.mu ≤ 2 * π) ∧ (kb.1 ≤ s.kappa ∧ s.kappa ≤ kb.2) ∧ ((pb.1 ≤ s.psi ∧ s.psi ≤ pb.2) ∨ s.psi = 0) ∧
    ∀ x, RegularAngle x → ∃ v, distPdf (jonespewsey E) x s = some v := by
  obtain ⟨h1, h2, h3⟩ := jpFit_mem E minimize rnd data weights method kb pb hkb hpb s h
  exact ⟨h1, h2, h3, fun x hx => ⟨_, distPdf_regular _ (show (jonespewsey E).argcheck s from ⟨h1, hk0.trans h2.1⟩) hx⟩⟩

/-- **C83.** The same for the sine-skewed fit. -/
theorem C83_jonespewsey_sineskewed (E : JPEnv) (minimize3 : (JP → Option ℝ) → JP → MinResult 3)
    (minScalar : (ℝ → Option ℝ) → ℝ × ℝ → Bool × ℝ) (minimize4 : (JSS → Option ℝ) → JSS → MinResult 4) (rnd : ℝ → ℤ)
    (data : List ℝ) (weights : Option (List ℝ)) (method : String) (refine : Bool) (kb pb lb : ℝ × ℝ) (hk0 : 0 ≤ kb.1)
    (hkb : kb.1 ≤ kb.2) (hpb : pb.1 ≤ pb.2) (hl0 : -1 ≤ lb.1) (hlb : lb.1 ≤ lb.2) (hl1 : lb.2 ≤ 1) (s : JSS)
    (h : jssFit E minimize3 minScalar minimize4 rnd data weights method refine kb pb lb = .ok s) :
    (0 ≤ s.xi ∧ s.xi ≤ 2 * π) ∧ (kb.1 ≤ s.kappa ∧ s.kappa ≤ kb.2) ∧ ((pb.1 ≤ s.psi ∧ s.psi ≤ pb.2) ∨ s.psi = 0) ∧
    (lb.1 ≤ s.lmbd ∧ s.lmbd ≤ lb.2) ∧
    ∀ x, RegularAngle x → ∃ v, distPdf (jonespewseySineskewed E) x s = some v := by
  have key : (0 ≤ s.xi ∧ s.xi ≤ 2 * π) ∧ (kb.1 ≤ s.kappa ∧ s.kappa ≤ kb.2) ∧ ((pb.1 ≤ s.psi ∧ s.psi ≤ pb.2) ∨ s.psi = 0) ∧
      (lb.1 ≤ s.lmbd ∧ s.lmbd ≤ lb.2) := by
    unfold jssFit at h
    simp only at h
    rcases hw : fitWeights (data.map wrap2pi).length weights with e | w
    · rw [hw] at h
      split_ifs at h <;> cases h
    · rw [hw] at h
      simp only [bind, Except.bind] at h
      rcases hb : jpFit E minimize3 rnd (data.map wrap2pi) (some w) "mle" kb pb with e | base
      · rw [hb] at h
        simp only at h
        split_ifs at h <;> cases h
      · obtain ⟨h1, h2, h3⟩ := jpFit_mem E minimize3 rnd _ _ _ kb pb hkb hpb base hb
        rw [hb] at h
        simp only at h
        split_ifs at h <;> cases h
        all_goals first
          | exact ⟨h1, h2, h3, clip_mem hlb⟩
          | exact ⟨wrap2pi_mem _, clip_mem hkb, Or.inl (clip_mem hpb), clip_mem hlb⟩
  obtain ⟨h1, h2, h3, h4⟩ := key
  refine ⟨h1, h2, h3, h4, fun x hx => ⟨_, distPdf_regular _ (show (jonespewseySineskewed E).argcheck s from
    ⟨h1, hk0.trans h2.1, hl0.trans h4.1, h4.2.trans hl1⟩) hx⟩⟩

end Verif
