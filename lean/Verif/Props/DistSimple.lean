import Verif.Lemmas.DistSimple
import Verif.Lemmas.Descriptive

/-! # Properties C71-C74, C100, C102: uniform, triangular and cardioid distributions -/

set_option autoImplicit false

namespace Verif

open Real Verif.Spec MeasureTheory

/-! ## C71: circular uniform -/

/-- **C71.** The circular uniform object has density `1/2π` and the distribution function that goes
with it. -/
theorem C71_distribution :
    IsDistribution (fun x => distPdf circUniform x ()) (fun x => distCdf circUniform x ())
      (fun _ => 1 / (2 * π)) := by
  have hp := two_pi_pos
  apply isDistribution_of_family circUniform () trivial
  · refine ⟨fun _ _ _ => by positivity, intervalIntegrable_const, ?_⟩
    rw [intervalIntegral.integral_const, smul_eq_mul, sub_zero]; field_simp
  · intros; rfl
  · intro x _ _
    rw [intervalIntegral.integral_const, smul_eq_mul]; show x / (2 * π) = _; ring

/-- **C71.** Its `ppf` is exactly `2πq`, which inverts `cdf`. -/
theorem C71_ppf :
    (∀ q, 0 ≤ q → q ≤ 1 → distPpf circUniform q () = some (2 * π * q)) ∧
    InvertsCdf (fun q => distPpf circUniform q ()) (fun x => distCdf circUniform x ())
      (1 / 10 ^ 14) := by
  have hp := two_pi_pos
  have hpi := pi_gt_three
  constructor
  · intro q h0 h1
    unfold distPpf
    by_cases e0 : q = 0
    · simp [circUniform, e0]
    · by_cases e1 : q = 1
      · simp [circUniform, e1]
      · rw [if_neg (not_not.mpr (show circUniform.argcheck () from trivial)), if_neg e0, if_neg e1,
          if_pos ⟨lt_of_le_of_ne h0 (Ne.symm e0), lt_of_le_of_ne h1 e1⟩]
        rfl
  · have := invertsCdf_of_family circUniform () trivial 0 le_rfl ?_ ?_ ?_
    · simpa using this
    · intro q h0 h1
      refine ⟨by simp only [circUniform]; positivity, by simp only [circUniform]; nlinarith, ?_⟩
      simp only [circUniform]
      rw [mul_div_cancel_left₀ _ hp.ne']; simp
    · simp [circUniform]
    · intro x hx hx'
      have := wrapTol_lt
      simp only [circUniform]
      rw [show 1 - x / (2 * π) = (2 * π - x) / (2 * π) by field_simp,
        abs_of_nonneg (div_nonneg (by linarith) hp.le), div_le_iff₀ hp]
      have : (0 : ℝ) < 1 / 10 ^ 14 := by positivity
      nlinarith

/-- **C71.** `fit` never returns parameters. -/
theorem C71_fit (data : List ℝ) : circUniformFit data = .error .notImplementedError := rfl

/-! ## C72: triangular -/

/-- **C72.** For every accepted `rho` the triangular object has the published triangular density
`(4 - π²ρ + 2πρ|π - x|)/(8π)`, which is a density, and the distribution function that goes with it. -/
theorem C72_distribution {rho : ℝ} (h0 : 0 ≤ rho) (h1 : rho ≤ 4 / π ^ 2) :
    IsDistribution (fun x => distPdf triangular x rho) (fun x => distCdf triangular x rho)
      (fun x => (4 - π ^ 2 * rho + 2 * π * rho * |π - x|) / (8 * π)) := by
  have he : (fun x => (4 - π ^ 2 * rho + 2 * π * rho * |π - x|) / (8 * π))
      = fun x => triPdf x rho := by
    funext x; unfold triPdf; rw [div_div]
  rw [he]
  apply isDistribution_of_family triangular rho ⟨h0, h1⟩ _ (tri_isCircularDensity h0 h1)
  · intros; rfl
  · intro x hx hx'
    have : (0 : ℝ) < 1 / 10 ^ 14 := by positivity
    exact triCdf_eq_integral hx.le (by linarith)

/-- **C72.** `ppf` inverts `cdf` up to `1e-12` for every accepted `rho`. -/
theorem C72_ppf {rho : ℝ} (h0 : 0 ≤ rho) (h1 : rho ≤ 4 / π ^ 2) :
    InvertsCdf (fun q => distPpf triangular q rho) (fun x => distCdf triangular x rho)
      (1 / 10 ^ 12) := by
  have hpi := pi_gt_three
  have := invertsCdf_of_family triangular rho ⟨h0, h1⟩ (9 / 10 ^ 13) (by positivity) ?_ ?_ ?_
  · refine ⟨fun q a b => ?_, this.2⟩
    obtain ⟨x, c, p1, p2, p3, p4, p5⟩ := this.1 q a b
    exact ⟨x, c, p1, p2, p3, p4, p5.trans (by norm_num)⟩
  · intro q hq0 hq1
    obtain ⟨a, b, c, _⟩ := triPpf_spec h0 h1 hq0.le hq1.le
    exact ⟨a, b, c⟩
  · show triCdf 0 rho = 0
    rw [triCdf_left le_rfl (by linarith)]; simp
  · intro x hx hx'
    have ht := wrapTol_lt
    have h10 : (1 : ℝ) / 10 ^ 14 < 1 := by norm_num
    have hs := triCdf_sub h0 h1 (by linarith : 0 ≤ x) hx' le_rfl
    have h2 : triCdf (2 * π) rho = 1 := by unfold triCdf; simp
    rw [h2] at hs
    show |1 - triCdf x rho| ≤ _
    rw [abs_of_nonneg hs.1]
    refine hs.2.trans ?_
    rw [div_le_iff₀ (by linarith)]
    have : (0 : ℝ) < 1 / 10 ^ 14 := by positivity
    nlinarith

/-- **C72.** Unless `rho` is below `1e-12` or `q` within `1e-14` of 1, `ppf` is an exact inverse. -/
theorem C72_ppf_exact {rho q : ℝ} (h0 : 1 / 10 ^ 12 < rho) (h1 : rho ≤ 4 / π ^ 2) (hq0 : 0 < q)
    (hq1 : q ≤ 1 - 1 / 10 ^ 14) :
    ∃ x, distPpf triangular q rho = some x ∧ 0 < x ∧ x < 2 * π ∧
      distCdf triangular x rho = some q := by
  have hpi := pi_gt_three
  have hr : 0 ≤ rho := le_trans (by positivity) h0.le
  have h10 : (0 : ℝ) < 1 / 10 ^ 14 := by positivity
  obtain ⟨a, b, _, d⟩ := triPpf_spec hr h1 hq0.le (by linarith)
  obtain ⟨_, d2, d3⟩ := d h0 hq1
  have hx0 : 0 < triPpf q rho := by
    refine lt_of_le_of_ne a fun e => ?_
    rw [← e, triCdf_left le_rfl (by linarith)] at d3
    simp at d3; linarith
  have harg : triangular.argcheck rho := ⟨hr, h1⟩
  refine ⟨triPpf q rho, ?_, hx0, by linarith, ?_⟩
  · unfold distPpf
    rw [if_neg (not_not.mpr harg), if_neg hq0.ne', if_neg (by linarith),
      if_pos ⟨hq0, by linarith⟩]
    rfl
  · unfold distCdf
    have := wrapTol_lt
    rw [wrap2pi_self a (by linarith), if_neg (not_not.mpr harg), if_neg (by linarith), if_pos hx0]
    show some (triCdf (triPpf q rho) rho) = some q
    rw [d3]

/-- Shapes outside the accepted range give `nan`. -/
theorem C72_rejects {rho : ℝ} (h : rho < 0 ∨ 4 / π ^ 2 < rho) (x : ℝ) :
    distPdf triangular x rho = none ∧ distCdf triangular x rho = none ∧
      distPpf triangular x rho = none := by
  have ha : ¬ triangular.argcheck rho := by
    rintro ⟨a, b⟩
    rcases h with h | h <;> linarith
  simp [distPdf, distCdf, distPpf, ha]

theorem integral_abs_cos : ∫ x in (0 : ℝ)..(2 * π), |π - x| * cos x = 4 := by
  have hpi := pi_pos
  have hi := fun a b : ℝ =>
    ((by fun_prop : Continuous fun x : ℝ => |π - x| * cos x).intervalIntegrable (μ := volume) a b)
  rw [← intervalIntegral.integral_add_adjacent_intervals (hi 0 π) (hi π (2 * π))]
  have hd : ∀ t : ℝ, HasDerivAt (fun t : ℝ => (π - t) * sin t - cos t) ((π - t) * cos t) t := by
    intro t
    have := (((hasDerivAt_id t).const_sub π).mul (hasDerivAt_sin t)).sub (hasDerivAt_cos t)
    refine this.congr_deriv ?_
    simp only [id]; ring
  have hI : ∀ a b : ℝ, ∫ t in a..b, (π - t) * cos t
      = ((π - b) * sin b - cos b) - ((π - a) * sin a - cos a) := fun a b =>
    intervalIntegral.integral_eq_sub_of_hasDerivAt (fun t _ => hd t)
      ((by fun_prop : Continuous fun t : ℝ => (π - t) * cos t).intervalIntegrable _ _)
  have e1 : ∫ x in (0 : ℝ)..π, |π - x| * cos x = ∫ x in (0 : ℝ)..π, (π - x) * cos x := by
    apply intervalIntegral.integral_congr
    intro t ht
    rw [Set.uIcc_of_le hpi.le] at ht
    simp only; rw [abs_of_nonneg (by linarith [ht.2])]
  have e2 : ∫ x in π..(2 * π), |π - x| * cos x = -∫ x in π..(2 * π), (π - x) * cos x := by
    rw [← intervalIntegral.integral_neg]
    apply intervalIntegral.integral_congr
    intro t ht
    rw [Set.uIcc_of_le (by linarith)] at ht
    simp only; rw [abs_of_nonpos (by linarith [ht.1])]; ring
  rw [e1, e2, hI, hI]
  simp; norm_num

theorem integral_abs_sin : ∫ x in (0 : ℝ)..(2 * π), |π - x| * sin x = 0 := by
  have h := intervalIntegral.integral_comp_sub_left (a := (0 : ℝ)) (b := 2 * π)
    (fun x => |π - x| * sin x) (2 * π)
  simp only [sub_self, sub_zero] at h
  have e : ∫ x in (0 : ℝ)..(2 * π), |π - (2 * π - x)| * sin (2 * π - x)
      = -∫ x in (0 : ℝ)..(2 * π), |π - x| * sin x := by
    rw [← intervalIntegral.integral_neg]
    congr 1
    funext x
    rw [sin_two_pi_sub, show π - (2 * π - x) = -(π - x) by ring, abs_neg]; ring
  rw [e] at h
  linarith

/-- **C72.** The parameter `rho` is the mean resultant length, and the mean direction is 0. -/
theorem C72_resultant {rho : ℝ} (h0 : 0 ≤ rho) (h1 : rho ≤ 4 / π ^ 2) :
    distTrigMoment triangular 1 rho = (rho : ℂ) ∧ distR (distTrigMoment triangular 1 rho) = rho ∧
    (1 / 10 ^ 12 < rho → distMean (distTrigMoment triangular 1 rho) = some 0) := by
  have hpi := pi_pos
  have hgen : ∀ g : ℝ → ℝ, Continuous g →
      ∫ x in (0 : ℝ)..(2 * π), triPdf x rho * g x
        = (4 - π ^ 2 * rho) / (8 * π) * (∫ x in (0 : ℝ)..(2 * π), g x)
          + rho / 4 * ∫ x in (0 : ℝ)..(2 * π), |π - x| * g x := by
    intro g hg
    rw [← intervalIntegral.integral_const_mul, ← intervalIntegral.integral_const_mul,
      ← intervalIntegral.integral_add ((by fun_prop : Continuous _).intervalIntegrable _ _)
        ((by fun_prop : Continuous _).intervalIntegrable _ _)]
    congr 1
    funext x
    unfold triPdf
    field_simp
    ring
  have hm : distTrigMoment triangular 1 rho = (rho : ℂ) := by
    apply Complex.ext
    · show ∫ x in (0 : ℝ)..(2 * π), triPdf x rho * cos ((1 : ℕ) * x) = rho
      simp only [Nat.cast_one, one_mul]
      rw [hgen cos continuous_cos, integral_cos, integral_abs_cos]
      simp
    · show ∫ x in (0 : ℝ)..(2 * π), triPdf x rho * sin ((1 : ℕ) * x) = 0
      simp only [Nat.cast_one, one_mul]
      rw [hgen sin continuous_sin, integral_sin, integral_abs_sin]
      simp
  have hr1 : rho ≤ 1 := by
    refine h1.trans ?_
    rw [div_le_one (by positivity)]
    nlinarith [pi_gt_three]
  have hR : distR (distTrigMoment triangular 1 rho) = rho := by
    rw [hm]
    unfold distR clip
    rw [Complex.norm_real, norm_of_nonneg h0, max_eq_left h0, min_eq_left hr1]
  refine ⟨hm, hR, fun hr => ?_⟩
  unfold distMean
  unfold distR at hR
  rw [hR, if_neg (by rw [isclose_zero_iff, abs_of_nonneg h0]; exact not_le.mpr hr), hm,
    Complex.arg_ofReal_of_nonneg h0]
  unfold wrapDirection
  rw [wrap2pi_zero]

/-! ## C73: cardioid -/

/-- **C73.** For every accepted `(mu, rho)` the cardioid object has the published density
`(1 + 2ρ cos(x - μ))/(2π)`, which is a density, and the distribution function that goes with it. -/
theorem C73_distribution {mu rho : ℝ} (hm0 : 0 ≤ mu) (hm1 : mu ≤ 2 * π) (h0 : 0 ≤ rho)
    (h1 : rho ≤ 1 / 2) :
    IsDistribution (fun x => distPdf cardioid x (mu, rho)) (fun x => distCdf cardioid x (mu, rho))
      (fun x => (1 + 2 * rho * cos (x - mu)) / (2 * π)) := by
  have he : (fun x => (1 + 2 * rho * cos (x - mu)) / (2 * π)) = fun x => cardPdf x mu rho := by
    funext x; unfold cardPdf; rw [div_div]
  rw [he]
  apply isDistribution_of_family cardioid (mu, rho) ⟨⟨hm0, hm1⟩, h0, h1⟩ _
    (card_isCircularDensity mu h0 h1)
  · intros; rfl
  · intro x _ _
    exact cardCdf_eq_integral x mu rho

/-- **C73.** The first trigonometric moment is `ρ e^{iμ}`: `rho` is the mean resultant length and `mu`
the mean direction. -/
theorem C73_resultant {mu rho : ℝ} (h0 : 0 ≤ rho) (h1 : rho ≤ 1 / 2) :
    distTrigMoment cardioid 1 (mu, rho) = rho * Complex.exp (mu * Complex.I) ∧
    distR (distTrigMoment cardioid 1 (mu, rho)) = rho ∧
    (1 / 10 ^ 12 < rho →
      ∃ m, distMean (distTrigMoment cardioid 1 (mu, rho)) = some m ∧ 0 ≤ m ∧ m ≤ 2 * π ∧
        SameDir m mu) := by
  have hpi := pi_pos
  have hm : distTrigMoment cardioid 1 (mu, rho) = rho * Complex.exp (mu * Complex.I) := by
    rw [Complex.exp_mul_I, ← Complex.ofReal_cos, ← Complex.ofReal_sin]
    apply Complex.ext
    · have : (↑rho * (↑(cos mu) + ↑(sin mu) * Complex.I) : ℂ).re = rho * cos mu := by
        simp only [Complex.mul_re, Complex.add_re, Complex.add_im, Complex.mul_im, Complex.ofReal_re,
          Complex.ofReal_im, Complex.I_re, Complex.I_im]; ring
      rw [this]
      show ∫ x in (0 : ℝ)..(2 * π), cardPdf x mu rho * cos ((1 : ℕ) * x) = _
      have hd : ∀ x : ℝ, HasDerivAt
          (fun x : ℝ => (sin x + rho * (sin (2 * x - mu) / 2 + x * cos mu)) / (2 * π))
          (cardPdf x mu rho * cos ((1 : ℕ) * x)) x := by
        intro x
        have h2 : HasDerivAt (fun x : ℝ => sin (2 * x - mu)) (cos (2 * x - mu) * (2 * 1)) x :=
          (((hasDerivAt_id x).const_mul 2).sub_const mu).sin
        have := ((hasDerivAt_sin x).add (((h2.div_const 2).add
          ((hasDerivAt_id x).mul_const (cos mu))).const_mul rho)).div_const (2 * π)
        refine this.congr_deriv ?_
        unfold cardPdf
        have hc : cos (2 * x - mu) + cos mu = 2 * (cos (x - mu) * cos x) := by
          have := cos_add_cos (2 * x - mu) mu
          rw [this, show (2 * x - mu + mu) / 2 = x by ring,
            show (2 * x - mu - mu) / 2 = x - mu by ring]; ring
        simp only [Nat.cast_one, one_mul]
        rw [show cos (2 * x - mu) * (2 * 1) / 2 + cos mu = cos (2 * x - mu) + cos mu by ring, hc]
        field_simp
      rw [intervalIntegral.integral_eq_sub_of_hasDerivAt (fun x _ => hd x)
        (by unfold cardPdf; exact (by fun_prop : Continuous _).intervalIntegrable _ _)]
      rw [show 2 * (2 * π) - mu = -mu + 2 * π + 2 * π by ring, sin_add_two_pi, sin_add_two_pi]
      simp
      field_simp
      ring
    · have : (↑rho * (↑(cos mu) + ↑(sin mu) * Complex.I) : ℂ).im = rho * sin mu := by
        simp only [Complex.mul_re, Complex.add_re, Complex.add_im, Complex.mul_im, Complex.ofReal_re,
          Complex.ofReal_im, Complex.I_re, Complex.I_im]; ring
      rw [this]
      show ∫ x in (0 : ℝ)..(2 * π), cardPdf x mu rho * sin ((1 : ℕ) * x) = _
      have hd : ∀ x : ℝ, HasDerivAt
          (fun x : ℝ => (-cos x + rho * (-cos (2 * x - mu) / 2 + x * sin mu)) / (2 * π))
          (cardPdf x mu rho * sin ((1 : ℕ) * x)) x := by
        intro x
        have h2 : HasDerivAt (fun x : ℝ => cos (2 * x - mu)) (-sin (2 * x - mu) * (2 * 1)) x :=
          (((hasDerivAt_id x).const_mul 2).sub_const mu).cos
        have := ((hasDerivAt_cos x).neg.add (((h2.neg.div_const 2).add
          ((hasDerivAt_id x).mul_const (sin mu))).const_mul rho)).div_const (2 * π)
        refine this.congr_deriv ?_
        unfold cardPdf
        have hc : sin (2 * x - mu) + sin mu = 2 * (cos (x - mu) * sin x) := by
          have := sin_add_sin (2 * x - mu) mu
          rw [this, show (2 * x - mu + mu) / 2 = x by ring,
            show (2 * x - mu - mu) / 2 = x - mu by ring]; ring
        simp only [Nat.cast_one, one_mul]
        rw [show -(-sin (2 * x - mu) * (2 * 1)) / 2 + sin mu = sin (2 * x - mu) + sin mu by ring, hc]
        field_simp
      rw [intervalIntegral.integral_eq_sub_of_hasDerivAt (fun x _ => hd x)
        (by unfold cardPdf; exact (by fun_prop : Continuous _).intervalIntegrable _ _)]
      rw [show 2 * (2 * π) - mu = -mu + 2 * π + 2 * π by ring, cos_add_two_pi, cos_add_two_pi]
      simp
      field_simp
      ring
  have hnorm : ‖(rho : ℂ) * Complex.exp (mu * Complex.I)‖ = rho := by
    rw [norm_mul, Complex.norm_exp_ofReal_mul_I, mul_one, Complex.norm_real, norm_of_nonneg h0]
  have hR : distR (distTrigMoment cardioid 1 (mu, rho)) = rho := by
    rw [hm]; unfold distR clip
    rw [hnorm, max_eq_left h0, min_eq_left (by linarith)]
  refine ⟨hm, hR, fun hr => ?_⟩
  have hr0 : 0 < rho := lt_trans (by positivity) hr
  unfold distMean
  unfold distR at hR
  rw [hR, if_neg (by rw [isclose_zero_iff, abs_of_nonneg h0]; exact not_le.mpr hr)]
  refine ⟨_, rfl, (wrap2pi_mem _).1, (wrap2pi_mem _).2, ?_⟩
  unfold wrapDirection
  have harg : SameDir (Complex.arg (distTrigMoment cardioid 1 (mu, rho))) mu := by
    rw [hm, Complex.arg_real_mul _ hr0]
    have h2 : ((Complex.arg (Complex.exp (mu * Complex.I)) : ℝ) : Real.Angle) = (mu : Real.Angle) := by
      rw [Complex.arg_exp_mul_I]; exact Real.Angle.coe_toIocMod mu (-π)
    obtain ⟨k, hk⟩ := Real.Angle.angle_eq_iff_two_pi_dvd_sub.mp h2
    exact ⟨k, by linarith⟩
  have hle := Complex.arg_le_pi (distTrigMoment cardioid 1 (mu, rho))
  have h3 := wrapTol_lt
  have h4 : (1 : ℝ) / 10 ^ 14 < 1 := by norm_num
  have h5 := pi_gt_three
  refine (wrap2pi_sameDir (Or.inl ?_)).trans harg
  rw [abs_of_nonpos (by linarith)]; linarith

/-! ## C74: the cardioid quantile -/

/-- **C74.** For every accepted `(mu, rho)` the quantile lies in `[0, 2π]` and its `cdf` is within
`2^-31` of the requested probability, however Newton's iterations behave; probabilities outside
`[0, 1]` give `nan`. -/
theorem C74_ppf {mu rho : ℝ} (hm0 : 0 ≤ mu) (hm1 : mu ≤ 2 * π) (h0 : 0 ≤ rho) (h1 : rho ≤ 1 / 2) :
    InvertsCdf (fun q => distPpf cardioid q (mu, rho)) (fun x => distCdf cardioid x (mu, rho))
      (1 / 2 ^ 31) := by
  have hpi := pi_gt_three
  have hcong := pymod_cong mu (2 * π)
  have := invertsCdf_of_family cardioid (mu, rho) ⟨⟨hm0, hm1⟩, h0, h1⟩ (1 / 2 ^ 32) (by positivity)
    ?_ ?_ ?_
  · refine ⟨fun q a b => ?_, this.2⟩
    obtain ⟨x, c, p1, p2, p3, p4, p5⟩ := this.1 q a b
    exact ⟨x, c, p1, p2, p3, p4, p5.trans (by norm_num)⟩
  · intro q hq0 hq1
    obtain ⟨a, b, c⟩ := cardSolve_spec (mu := pymod mu (2 * π)) h0 h1 hq0.le hq1
    refine ⟨a, b, ?_⟩
    show |cardCdf (cardPpf q mu rho) mu rho - q| ≤ _
    rw [cardCdf_congr_mu (sin_eq_of_sameDir hcong).symm (cos_eq_of_sameDir hcong).symm]
    exact c
  · exact cardCdf_zero mu rho
  · intro x hx hx'
    have ht := wrapTol_lt
    have h10 : (1 : ℝ) / 10 ^ 14 < 1 := by norm_num
    have hs := cardCdf_sub mu h0 h1 (by linarith : 0 ≤ x) hx' le_rfl
    rw [cardCdf_two_pi] at hs
    show |1 - cardCdf x mu rho| ≤ _
    rw [abs_of_nonneg hs.1]
    refine hs.2.trans ?_
    rw [div_le_iff₀ (by linarith)]
    have : (0 : ℝ) < 1 / 10 ^ 14 := by positivity
    nlinarith

/-! ## Non-vacuity -/

/-- The hypotheses of C72 hold for a non-uniform shape. -/
example : IsDistribution (fun x => distPdf triangular x (1 / 5)) (fun x => distCdf triangular x (1 / 5))
    (fun x => (4 - π ^ 2 * (1 / 5) + 2 * π * (1 / 5) * |π - x|) / (8 * π)) := by
  apply C72_distribution (by norm_num)
  rw [le_div_iff₀ (by positivity)]
  nlinarith [pi_lt_d2, pi_pos]

/-- The hypotheses of C72_ppf_exact hold. -/
example : ∃ x, distPpf triangular (1 / 4) (1 / 5) = some x ∧ 0 < x ∧ x < 2 * π ∧
    distCdf triangular x (1 / 5) = some (1 / 4) := by
  apply C72_ppf_exact (by norm_num) _ (by norm_num) (by norm_num)
  rw [le_div_iff₀ (by positivity)]
  nlinarith [pi_lt_d2, pi_pos]

/-- The hypotheses of C73 and C74 hold for a non-uniform shape. -/
example : InvertsCdf (fun q => distPpf cardioid q (1, 2 / 5)) (fun x => distCdf cardioid x (1, 2 / 5))
    (1 / 2 ^ 31) :=
  C74_ppf (by norm_num) (by linarith [pi_gt_three]) (by norm_num) (by norm_num)

end Verif
