import Verif.Props.DistKatoJonesB
import Verif.Lemmas.Descriptive

/-! # Properties C83 and C103: fitting the Kato-Jones distribution -/

set_option autoImplicit false

namespace Verif

open Real MeasureTheory Verif.Spec

/-- **C83.** Maximum likelihood: whatever the optimiser answers, the estimate is in range and exactly
feasible; it is accepted by `pdf` unless the mean direction is exactly `2π`. -/
theorem C83_katojones_mle (minimize : String → ((Fin 4 → ℝ) → ℝ) → (Fin 4 → ℝ) → MinResult 4) (data : List ℝ)
    (weights : Option (List ℝ)) (initial : KJ) (optimizer : String) (s : KJ)
    (h : kjFitMle minimize data weights initial optimizer = .ok s) :
    (0 ≤ s.mu ∧ s.mu ≤ 2 * π) ∧ (0 ≤ s.gamma ∧ s.gamma ≤ 1 - 1 / 10 ^ 9) ∧ (0 ≤ s.rho ∧ s.rho ≤ 1 - 1 / 10 ^ 9) ∧
    (0 ≤ s.lam ∧ s.lam < 2 * π) ∧
    (s.rho * cos s.lam - s.gamma) ^ 2 + (s.rho * sin s.lam) ^ 2 ≤ (1 - s.gamma) ^ 2 ∧
    (s.mu < 2 * π → ∀ x, ∃ v, distPdf katojones x s = some v) := by
  have key : ∀ p : Fin 4 → ℝ, (0 ≤ (kjEstimate p).mu ∧ (kjEstimate p).mu ≤ 2 * π) ∧
      (0 ≤ (kjEstimate p).gamma ∧ (kjEstimate p).gamma ≤ 1 - 1 / 10 ^ 9) ∧
      (0 ≤ (kjEstimate p).rho ∧ (kjEstimate p).rho ≤ 1 - 1 / 10 ^ 9) ∧
      (0 ≤ (kjEstimate p).lam ∧ (kjEstimate p).lam < 2 * π) ∧
      ((kjEstimate p).rho * cos (kjEstimate p).lam - (kjEstimate p).gamma) ^ 2
        + ((kjEstimate p).rho * sin (kjEstimate p).lam) ^ 2 ≤ (1 - (kjEstimate p).gamma) ^ 2 := by
    intro p
    have hg := clip_mem (v := p 1) (lo := 0) (hi := 1 - 1 / 10 ^ 9) (by norm_num)
    obtain ⟨rho, lam, e, a, b, c, d, f⟩ := C79_aux_feasible hg.1 hg.2 (clip (p 2) 0 (1 - 1 / 10 ^ 9)) (pymod (p 3) (2 * π))
    have e' : kjEstimate p = ⟨wrapDirection (p 0), clip (p 1) 0 (1 - 1 / 10 ^ 9), rho, lam⟩ := by
      unfold kjEstimate
      simp only
      rw [e]
    rw [e']
    exact ⟨wrap2pi_mem _, hg, ⟨a, b⟩, ⟨c, d⟩, f⟩
  have hk : ∃ p, s = kjEstimate p := by
    unfold kjFitMle at h
    simp only at h
    split_ifs at h with h0
    all_goals
      rcases hw : fitWeights (data.map wrap2pi).length weights with e | w
      · rw [hw] at h; simp only [bind, Except.bind] at h; cases h
      · rw [hw] at h
        simp only [bind, Except.bind] at h
        split_ifs at h <;> cases h <;> exact ⟨_, rfl⟩
  obtain ⟨p, rfl⟩ := hk
  obtain ⟨a, b, c, d, e⟩ := key p
  refine ⟨a, b, c, d, e, ?_⟩
  intro hm x
  have h9 : (0 : ℝ) < 1 / 10 ^ 9 := by positivity
  have h12 : (0 : ℝ) < 1 / 10 ^ 12 := by positivity
  unfold distPdf
  rw [if_neg (not_not.2 ⟨⟨a.1, hm⟩, ⟨b.1, by linarith [b.2]⟩, ⟨c.1, by linarith [c.2]⟩, d, e.trans (by linarith)⟩)]
  split_ifs <;> exact ⟨_, rfl⟩

/-- **C83.** The exception is real: an optimiser that stops at its starting point, from an initial mean
direction `2π`, gives an estimate that the distribution itself refuses (`pdf` is `nan` everywhere). -/
theorem C83_katojones_seam :
    ∃ s, kjFitMle (fun _ _ x0 => ⟨true, x0⟩) [1, 2] none ⟨2 * π, 1 / 2, 1 / 4, 0⟩ "L-BFGS-B" = .ok s ∧
      ∀ x, distPdf katojones x s = none := by
  refine ⟨kjEstimate ![wrapDirection (2 * π), clip (1 / 2) (1 / 10 ^ 6) (1 - 1 / 10 ^ 6),
    (kjAux (clip (1 / 2) (1 / 10 ^ 6) (1 - 1 / 10 ^ 6)) (if clip (1 / 4) 0 (1 - 1 / 10 ^ 6) < 1 / 10 ^ 12 then 0 else clip (1 / 4) 0 (1 - 1 / 10 ^ 6))
      (if clip (1 / 4) 0 (1 - 1 / 10 ^ 6) < 1 / 10 ^ 12 then 0 else pymod 0 (2 * π))).1,
    (kjAux (clip (1 / 2) (1 / 10 ^ 6) (1 - 1 / 10 ^ 6)) (if clip (1 / 4) 0 (1 - 1 / 10 ^ 6) < 1 / 10 ^ 12 then 0 else clip (1 / 4) 0 (1 - 1 / 10 ^ 6))
      (if clip (1 / 4) 0 (1 - 1 / 10 ^ 6) < 1 / 10 ^ 12 then 0 else pymod 0 (2 * π))).2], ?_, ?_⟩
  · unfold kjFitMle
    simp [fitWeights, bind, Except.bind]
  · intro x
    unfold distPdf
    rw [if_pos]
    rintro ⟨⟨-, h⟩, -⟩
    have : (kjEstimate ![wrapDirection (2 * π), clip (1 / 2) (1 / 10 ^ 6) (1 - 1 / 10 ^ 6),
      (kjAux (clip (1 / 2) (1 / 10 ^ 6) (1 - 1 / 10 ^ 6)) (if clip (1 / 4) 0 (1 - 1 / 10 ^ 6) < 1 / 10 ^ 12 then 0 else clip (1 / 4) 0 (1 - 1 / 10 ^ 6))
        (if clip (1 / 4) 0 (1 - 1 / 10 ^ 6) < 1 / 10 ^ 12 then 0 else pymod 0 (2 * π))).1,
      (kjAux (clip (1 / 2) (1 / 10 ^ 6) (1 - 1 / 10 ^ 6)) (if clip (1 / 4) 0 (1 - 1 / 10 ^ 6) < 1 / 10 ^ 12 then 0 else clip (1 / 4) 0 (1 - 1 / 10 ^ 6))
        (if clip (1 / 4) 0 (1 - 1 / 10 ^ 6) < 1 / 10 ^ 12 then 0 else pymod 0 (2 * π))).2]).mu = 2 * π := by
      show wrap2pi (wrap2pi (2 * π)) = 2 * π
      rw [wrap2pi_two_pi, wrap2pi_two_pi]
    rw [this] at h
    exact lt_irrefl _ h

/-- The projection lands in the disc of feasible second moments. -/
theorem kjProject_mem {gamma : ℝ} (hg0 : 0 ≤ gamma) (hg1 : gamma ≤ 1) (a b : ℝ) :
    ((kjProject gamma a b).1 - gamma * gamma) ^ 2 + (kjProject gamma a b).2 ^ 2 ≤ (gamma * (1 - gamma)) ^ 2 := by
  have hR : 0 ≤ gamma * (1 - gamma) := mul_nonneg hg0 (by linarith)
  have hD2 : sqrt ((a - gamma * gamma) ^ 2 + b ^ 2) ^ 2 = (a - gamma * gamma) ^ 2 + b ^ 2 := sq_sqrt (by positivity)
  have hD0 : 0 ≤ sqrt ((a - gamma * gamma) ^ 2 + b ^ 2) := sqrt_nonneg _
  unfold kjProject
  simp only
  split_ifs with h1 h2 h3
  · simp only [sub_self]; nlinarith
  · simp only; rw [← hD2]; gcongr
  · simp only; apply le_of_eq; ring
  · simp only
    set D := sqrt ((a - gamma * gamma) ^ 2 + b ^ 2)
    have e : (gamma * gamma + (a - gamma * gamma) * (gamma * (1 - gamma) / D) - gamma * gamma) ^ 2
        + (b * (gamma * (1 - gamma) / D)) ^ 2 = ((a - gamma * gamma) ^ 2 + b ^ 2) * (gamma * (1 - gamma) / D) ^ 2 := by ring
    rw [e, ← hD2, ← mul_pow, mul_div_cancel₀ _ h3]

/-- **C83.** Method of moments: the estimate is in range and exactly feasible whatever the data and
weights; it is accepted by `pdf` unless the mean direction is exactly `2π`. -/
theorem C83_katojones_moments (data : List ℝ) (weights : Option (List ℝ)) (mu gamma rho lam : ℝ)
    (h : kjFitMoments data weights = .ok (some mu, gamma, rho, lam)) :
    (0 ≤ mu ∧ mu ≤ 2 * π) ∧ (0 ≤ gamma ∧ gamma ≤ 1 - 1 / 10 ^ 9) ∧ (0 ≤ rho ∧ rho ≤ 1 - 1 / 10 ^ 9) ∧
    (0 ≤ lam ∧ lam < 2 * π) ∧
    (rho * cos lam - gamma) ^ 2 + (rho * sin lam) ^ 2 ≤ (1 - gamma) ^ 2 ∧
    (mu < 2 * π → ∀ x, ∃ v, distPdf katojones x ⟨mu, gamma, rho, lam⟩ = some v) := by
  have h9 : (0 : ℝ) < 1 / 10 ^ 9 := by positivity
  have h12 : (0 : ℝ) < 1 / 10 ^ 12 := by positivity
  have key : (0 ≤ mu ∧ mu ≤ 2 * π) ∧ (0 ≤ gamma ∧ gamma ≤ 1 - 1 / 10 ^ 9) ∧ (0 ≤ rho ∧ rho ≤ 1 - 1 / 10 ^ 9) ∧
      (0 ≤ lam ∧ lam < 2 * π) ∧ (rho * cos lam - gamma) ^ 2 + (rho * sin lam) ^ 2 ≤ (1 - gamma) ^ 2 := by
    unfold kjFitMoments at h
    simp only at h
    split_ifs at h with h0
    rcases hw : fitWeights (data.map wrap2pi).length weights with e | w
    · rw [hw] at h; simp only [bind, Except.bind] at h; cases h
    rw [hw] at h
    simp only [bind, Except.bind] at h
    rcases hc : circMeanAndR (data.map wrap2pi) w with _ | ⟨_ | m, r1⟩
    · rw [hc] at h; cases h
    · rw [hc] at h; simp only at h; cases h
    rw [hc] at h
    simp only at h
    have hg := clip_mem (v := r1) (lo := 0) (hi := 1 - 1 / 10 ^ 9) (by norm_num)
    obtain ⟨g, hgdef⟩ : ∃ g, clip r1 0 (1 - 1 / 10 ^ 9) = g := ⟨_, rfl⟩
    rw [hgdef] at h hg
    split_ifs at h with h1 h2
    · cases h
      refine ⟨wrap2pi_mem _, hg, ⟨le_rfl, by norm_num⟩, ⟨le_rfl, two_pi_pos⟩, ?_⟩
      have : (1 : ℝ) / 10 ^ 12 < 1 / 2 := by norm_num
      simp only [zero_mul, zero_sub]
      nlinarith [hg.1]
    all_goals
      have hgp : 0 < g := by linarith
      have hP := kjProject_mem hg.1 (show g ≤ 1 by linarith [hg.2])
        ((List.zipWith (fun xi wi => wi * cos (2 * angmod2pi (xi - m))) (data.map wrap2pi) w).sum / w.sum)
        ((List.zipWith (fun xi wi => wi * sin (2 * angmod2pi (xi - m))) (data.map wrap2pi) w).sum / w.sum)
      set pr := kjProject g
        ((List.zipWith (fun xi wi => wi * cos (2 * angmod2pi (xi - m))) (data.map wrap2pi) w).sum / w.sum)
        ((List.zipWith (fun xi wi => wi * sin (2 * angmod2pi (xi - m))) (data.map wrap2pi) w).sum / w.sum)
      have hmax : max g (1 / 10 ^ 12) = g := max_eq_left (not_lt.1 h1)
      rw [hmax] at h h2
      have hsc : sqrt (pr.1 ^ 2 + pr.2 ^ 2) / g = sqrt ((pr.1 / g) ^ 2 + (pr.2 / g) ^ 2) := by
        rw [show (pr.1 / g) ^ 2 + (pr.2 / g) ^ 2 = (pr.1 ^ 2 + pr.2 ^ 2) / g ^ 2 by field_simp,
          sqrt_div (by positivity), sqrt_sq hgp.le]
      have hD : (pr.1 / g - g) ^ 2 + (pr.2 / g) ^ 2 ≤ (1 - g) ^ 2 := by
        have e : (pr.1 / g - g) ^ 2 + (pr.2 / g) ^ 2 = ((pr.1 - g * g) ^ 2 + pr.2 ^ 2) / g ^ 2 := by field_simp
        rw [e, div_le_iff₀ (by positivity)]
        linarith
      cases h
    · refine ⟨wrap2pi_mem _, hg, clip_mem (by norm_num), ⟨le_rfl, two_pi_pos⟩, ?_⟩
      rw [cos_zero, sin_zero, mul_one, mul_zero]
      have hr := clip_mem (v := sqrt (pr.1 ^ 2 + pr.2 ^ 2) / gamma) (lo := 0) (hi := 1 - 1 / 10 ^ 9) (by norm_num)
      have hS0 : 0 ≤ sqrt (pr.1 ^ 2 + pr.2 ^ 2) / gamma := div_nonneg (sqrt_nonneg _) hgp.le
      have hle : sqrt (pr.1 ^ 2 + pr.2 ^ 2) / gamma ≤ 1 - 1 / 10 ^ 9 := by
        by_contra hc
        have : clip (sqrt (pr.1 ^ 2 + pr.2 ^ 2) / gamma) 0 (1 - 1 / 10 ^ 9) = 1 - 1 / 10 ^ 9 := by
          unfold clip; rw [max_eq_left hS0, min_eq_right (not_le.1 hc).le]
        rw [this] at h2
        norm_num at h2
      rw [kj_clip_self hS0 hle] at hr ⊢
      rw [hsc] at hr ⊢
      set W := sqrt ((pr.1 / gamma) ^ 2 + (pr.2 / gamma) ^ 2) with hW
      have hW2 : W ^ 2 = (pr.1 / gamma) ^ 2 + (pr.2 / gamma) ^ 2 := sq_sqrt (by positivity)
      have hre : pr.1 / gamma ≤ W := by
        rw [hW]; apply le_sqrt_of_sq_le; nlinarith [sq_nonneg (pr.2 / gamma)]
      nlinarith [mul_nonneg hgp.le (sub_nonneg.2 hre)]
    · refine ⟨wrap2pi_mem _, hg, clip_mem (by norm_num), ⟨pymod_nonneg two_pi_pos _, pymod_lt two_pi_pos _⟩, ?_⟩
      have hk := kj_shrink (c := 1 - 1 / 10 ^ 9) hg.1 hg.2 hD
      simp only at hk
      have harg : arctan2 (pr.2 / gamma) (pr.1 / gamma) = arctan2 pr.2 pr.1 := by
        unfold arctan2
        rw [show (⟨pr.1 / gamma, pr.2 / gamma⟩ : ℂ) = ((gamma⁻¹ : ℝ) : ℂ) * ⟨pr.1, pr.2⟩ by
          apply Complex.ext
          · rw [Complex.re_ofReal_mul]; exact div_eq_inv_mul _ _
          · rw [Complex.im_ofReal_mul]; exact div_eq_inv_mul _ _]
        exact Complex.arg_real_mul _ (by positivity)
      rwa [← hsc, harg] at hk
  obtain ⟨a, b, c, d, e⟩ := key
  refine ⟨a, b, c, d, e, ?_⟩
  intro hm x
  unfold distPdf
  rw [if_neg (not_not.2 ⟨⟨a.1, hm⟩, ⟨b.1, by show gamma < 1; linarith [b.2]⟩, ⟨c.1, by show rho < 1; linarith [c.2]⟩, d,
    e.trans (by show _ ≤ (1 - gamma) ^ 2 + _; linarith)⟩)]
  split_ifs <;> exact ⟨_, rfl⟩

/-- **C103.** The method of moments reproduces the first two trigonometric moments of the sample, whenever
the sample's second moment is feasible for the family and no clipping takes place: the mean resultant length
is between `1e-12` and `1 - 1e-9`, and the second moment, seen from the mean direction, lies in the disc of
centre `r²` and radius `r(1 - r)`, with length at least `1e-12 r` and at most `(1 - 1e-9) r`. -/
theorem C103_moments (data : List ℝ) (hdata : ∀ x ∈ data, RegularAngle x) (weights : Option (List ℝ)) (w : List ℝ)
    (hw : fitWeights data.length weights = .ok w) (r : ℝ) (hr : r = ‖moment data w 1‖)
    (hr0 : 1 / 10 ^ 12 < r) (hr1 : r ≤ 1 - 1 / 10 ^ 9) (mu : ℝ) (hmu : moment data w 1 = r * Complex.exp (mu * Complex.I))
    (hmu0 : 0 ≤ mu) (hmu1 : mu ≤ 2 * π - 1 / 10 ^ 14)
    (hfeas : ‖moment data w 2 * Complex.exp ((-(2 * mu) : ℝ) * Complex.I) - (r ^ 2 : ℝ)‖ ≤ r * (1 - r))
    (h20 : 1 / 10 ^ 12 * r ≤ ‖moment data w 2‖) (h21 : ‖moment data w 2‖ ≤ (1 - 1 / 10 ^ 9) * r) :
    ∃ gamma rho lam, kjFitMoments data weights = .ok (some mu, gamma, rho, lam) ∧
      kjTrigMoment 1 ⟨mu, gamma, rho, lam⟩ = moment data w 1 ∧
      kjTrigMoment 2 ⟨mu, gamma, rho, lam⟩ = moment data w 2 := by
  have h12 : (0 : ℝ) < 1 / 10 ^ 12 := by positivity
  have h14 : (0 : ℝ) < 1 / 10 ^ 14 := by positivity
  have hrp : 0 < r := by linarith
  obtain ⟨hlen, -, hsum⟩ := fitWeights_ok hw
  have hx : data.map wrap2pi = data := by
    conv_rhs => rw [← List.map_id data]
    exact List.map_congr_left fun x hx => kj_regular (hdata x hx)
  have hne : data.length ≠ 0 := by
    intro h0
    rw [h0] at hlen
    rw [List.eq_nil_of_length_eq_zero hlen] at hsum
    simp at hsum
  have hmean : angmod2pi (Complex.arg (moment data w 1)) = mu := by
    rw [angmod2pi_eq_iff]
    refine ⟨hmu0, by linarith, ?_⟩
    rw [hmu, Complex.arg_real_mul _ hrp, Complex.arg_exp_mul_I]
    obtain ⟨k, hk⟩ := Real.Angle.angle_eq_iff_two_pi_dvd_sub.mp (Real.Angle.coe_toIocMod mu (-π)).symm
    exact ⟨k, by linarith⟩
  have hcm : circMeanAndR data w = some (some mu, r) := by
    rw [circMeanAndR_eq, if_neg hsum.ne', ← hr, if_neg (not_le.2 hr0), hmean]
  set z : ℂ := moment data w 2 * Complex.exp ((-(2 * mu) : ℝ) * Complex.I) with hz
  have hzn : ‖z‖ = ‖moment data w 2‖ := by
    rw [hz, norm_mul, Complex.norm_exp_ofReal_mul_I, mul_one]
  have ha2 : (List.zipWith (fun xi wi => wi * cos (2 * angmod2pi (xi - mu))) data w).sum / w.sum = z.re := by
    have e : (fun xi wi : ℝ => wi * cos (2 * angmod2pi (xi - mu))) = fun a w => w * cos (((2 : ℤ) : ℝ) * (a - mu)) := by
      funext a v
      rw [cos_two_mul, cos_angmod2pi, ← cos_two_mul]; push_cast; rfl
    rw [e, zip_cos_sum, hz, moment]
    rw [div_mul_eq_mul_div, Complex.div_ofReal_re, mul_comm]
    push_cast; rfl
  have hb2 : (List.zipWith (fun xi wi => wi * sin (2 * angmod2pi (xi - mu))) data w).sum / w.sum = z.im := by
    have e : (fun xi wi : ℝ => wi * sin (2 * angmod2pi (xi - mu))) = fun a w => w * sin (((2 : ℤ) : ℝ) * (a - mu)) := by
      funext a v
      rw [sin_two_mul, sin_angmod2pi, cos_angmod2pi, ← sin_two_mul]; push_cast; rfl
    rw [e, zip_sin_sum, hz, moment]
    rw [div_mul_eq_mul_div, Complex.div_ofReal_im, mul_comm]
    push_cast; rfl
  have hclip : clip r 0 (1 - 1 / 10 ^ 9) = r := kj_clip_self hrp.le hr1
  have hz2 : sqrt (z.re ^ 2 + z.im ^ 2) = ‖z‖ := (Complex.norm_eq_sqrt_sq_add_sq z).symm
  have hproj : kjProject r z.re z.im = (z.re, z.im) := by
    have hd : sqrt ((z.re - r * r) ^ 2 + z.im ^ 2) ≤ r * (1 - r) := by
      refine le_trans (le_of_eq ?_) hfeas
      rw [Complex.norm_eq_sqrt_sq_add_sq]
      simp [sq]
    unfold kjProject
    simp only
    have h9 : (0 : ℝ) < 1 / 10 ^ 9 := by positivity
    rw [if_neg (not_le.2 (mul_pos hrp (by linarith))), if_pos hd]
  have hrho : clip (‖z‖ / r) 0 (1 - 1 / 10 ^ 9) = ‖z‖ / r :=
    kj_clip_self (by positivity) (by rw [div_le_iff₀ hrp, hzn]; exact h21)
  refine ⟨r, ‖z‖ / r, pymod (arctan2 z.im z.re) (2 * π), ?_, ?_, ?_⟩
  · unfold kjFitMoments
    simp only
    rw [hx, if_neg hne, hw]
    simp only [bind, Except.bind, hcm]
    rw [ha2, hb2, hclip, hproj, if_neg (not_lt.2 hr0.le), max_eq_left hr0.le, hz2, hrho, if_neg]
    · rw [show wrapDirection mu = mu from wrap2pi_self hmu0 (by linarith [wrapTol_lt])]
    · rw [not_lt, le_div_iff₀ hrp, hzn]; exact h20
  · rw [hmu]
    unfold kjTrigMoment
    simp [mul_comm]
  · have e2 : moment data w 2 = z * Complex.exp (((2 * mu : ℝ)) * Complex.I) := by
      rw [hz, mul_assoc, ← Complex.exp_add]
      simp
    have hpol : z = ‖z‖ * Complex.exp ((pymod (arctan2 z.im z.re) (2 * π) : ℝ) * Complex.I) := by
      obtain ⟨p1, p2⟩ := kj_polar z.re z.im
      rw [hz2] at p1 p2
      rw [Complex.exp_mul_I, ← Complex.ofReal_cos, ← Complex.ofReal_sin]
      apply Complex.ext
      · simp only [Complex.mul_re, Complex.add_re, Complex.add_im, Complex.mul_im, Complex.ofReal_re,
          Complex.ofReal_im, Complex.I_re, Complex.I_im]; linarith
      · simp only [Complex.mul_re, Complex.add_re, Complex.add_im, Complex.mul_im, Complex.ofReal_re,
          Complex.ofReal_im, Complex.I_re, Complex.I_im]; linarith
    rw [e2]
    conv_rhs => rw [hpol]
    have er : r * (‖z‖ / r) = ‖z‖ := mul_div_cancel₀ _ hrp.ne'
    unfold kjTrigMoment
    simp only
    rw [if_neg (by norm_num), if_neg (by norm_num), show (2 : ℤ).natAbs = 2 from rfl, if_neg (by norm_num),
      show 2 - 1 = 1 from rfl, pow_one, er, mul_assoc, ← Complex.exp_add]
    congr 2
    push_cast; ring

/-- The angles `0, π/2, 3π/2` with weights `6, 1, 1`: mean resultant `3/4`, second moment `1/2`. -/
example : ∃ gamma rho lam, kjFitMoments [0, π / 2, 3 * π / 2] (some [6, 1, 1]) = .ok (some 0, gamma, rho, lam) ∧
    kjTrigMoment 1 ⟨0, gamma, rho, lam⟩ = (3 / 4 : ℝ) ∧ kjTrigMoment 2 ⟨0, gamma, rho, lam⟩ = (1 / 2 : ℝ) := by
  have hpi := pi_gt_three
  have c3 : cos (3 * π / 2) = 0 := by
    rw [show 3 * π / 2 = π / 2 + π by ring, cos_add_pi, cos_pi_div_two, neg_zero]
  have s3 : sin (3 * π / 2) = -1 := by
    rw [show 3 * π / 2 = π / 2 + π by ring, sin_add_pi, sin_pi_div_two]
  have c6 : cos (2 * (3 * π / 2)) = -1 := by rw [cos_two_mul, c3]; norm_num
  have s6 : sin (2 * (3 * π / 2)) = 0 := by rw [sin_two_mul, c3]; ring
  have c2 : cos (2 * (π / 2)) = -1 := by rw [cos_two_mul, cos_pi_div_two]; norm_num
  have s2 : sin (2 * (π / 2)) = 0 := by rw [sin_two_mul, cos_pi_div_two]; ring
  have hE : ∀ t : ℝ, Complex.exp (t * Complex.I) = ⟨cos t, sin t⟩ := by
    intro t
    rw [Complex.exp_mul_I, ← Complex.ofReal_cos, ← Complex.ofReal_sin]
    apply Complex.ext
    · simp only [Complex.mul_re, Complex.add_re, Complex.ofReal_re,
        Complex.ofReal_im, Complex.I_re, Complex.I_im]; ring
    · simp only [Complex.add_im, Complex.mul_im, Complex.ofReal_re,
        Complex.ofReal_im, Complex.I_re, Complex.I_im]; ring
  have m1 : moment [0, π / 2, 3 * π / 2] [6, 1, 1] 1 = (3 / 4 : ℝ) := by
    unfold moment expSum
    simp only [List.zipWith_cons_cons, List.zipWith_nil_left, List.sum_cons, List.sum_nil, Int.cast_one, one_mul, hE, c3, s3,
      cos_pi_div_two, sin_pi_div_two, cos_zero, sin_zero]
    apply Complex.ext
    · rw [Complex.div_ofReal_re]; simp; norm_num
    · rw [Complex.div_ofReal_im]; simp
  have m2 : moment [0, π / 2, 3 * π / 2] [6, 1, 1] 2 = (1 / 2 : ℝ) := by
    unfold moment expSum
    simp only [List.zipWith_cons_cons, List.zipWith_nil_left, List.sum_cons, List.sum_nil, Int.cast_ofNat, mul_zero, hE, c6, s6,
      c2, s2, cos_zero, sin_zero]
    apply Complex.ext
    · rw [Complex.div_ofReal_re]; simp; norm_num
    · rw [Complex.div_ofReal_im]; simp
  have n1 : ‖((3 / 4 : ℝ) : ℂ)‖ = 3 / 4 := by rw [Complex.norm_real]; norm_num
  have n2 : ‖((1 / 2 : ℝ) : ℂ)‖ = 1 / 2 := by rw [Complex.norm_real]; norm_num
  obtain ⟨g, rho, lam, h1, h2, h3⟩ := C103_moments [0, π / 2, 3 * π / 2] (by
      intro x hx
      simp only [List.mem_cons, List.not_mem_nil, or_false] at hx
      have h14 : (1 : ℝ) / 10 ^ 14 < 1 := by norm_num
      rcases hx with rfl | rfl | rfl
      · exact ⟨le_rfl, Or.inl (by linarith)⟩
      · exact ⟨by positivity, Or.inl (by linarith)⟩
      · exact ⟨by positivity, Or.inl (by linarith)⟩) (some [6, 1, 1]) [6, 1, 1] (by
      unfold fitWeights broadcastTo
      simp only
      rw [if_neg (by simp), if_pos (by simp)]
      simp only
      rw [if_neg (by norm_num)]) (3 / 4) (by rw [m1, n1]) (by norm_num) (by norm_num) 0
    (by rw [m1]; simp) le_rfl (by have h14 : (1 : ℝ) / 10 ^ 14 < 1 := by norm_num
                                  linarith)
    (by
      rw [m2, mul_zero, neg_zero, Complex.ofReal_zero, zero_mul, Complex.exp_zero, mul_one, ← Complex.ofReal_sub,
        Complex.norm_real]
      norm_num [abs_of_neg, abs_of_pos])
    (by rw [m2, n2]; norm_num) (by rw [m2, n2]; norm_num)
  exact ⟨g, rho, lam, h1, h2.trans m1, h3.trans m2⟩

end Verif
