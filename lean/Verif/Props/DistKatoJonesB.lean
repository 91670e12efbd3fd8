import Verif.Props.DistKatoJones
import Verif.Props.DistSimpleB
import Verif.Props.Solver
import Mathlib.Analysis.SpecialFunctions.Trigonometric.Angle

/-! # Properties C79, C82, C83, C102 for the Kato-Jones distribution -/

set_option autoImplicit false

namespace Verif

open Real MeasureTheory Verif.Spec

/-! ## C79: parameter conversions -/

theorem kj_polar (a b : ℝ) :
    sqrt (a ^ 2 + b ^ 2) * cos (pymod (arctan2 b a) (2 * π)) = a ∧
    sqrt (a ^ 2 + b ^ 2) * sin (pymod (arctan2 b a) (2 * π)) = b := by
  have hc := pymod_cong (arctan2 b a) (2 * π)
  rw [cos_eq_of_sameDir hc, sin_eq_of_sameDir hc]
  have h1 := Complex.norm_mul_cos_arg ⟨a, b⟩
  have h2 := Complex.norm_mul_sin_arg ⟨a, b⟩
  rw [Complex.norm_eq_sqrt_sq_add_sq] at h1 h2
  exact ⟨h1, h2⟩

theorem sameDir_of_trig {a b : ℝ} (hc : cos a = cos b) (hs : sin a = sin b) : SameDir a b := by
  obtain ⟨k, hk⟩ := Real.Angle.angle_eq_iff_two_pi_dvd_sub.mp (Real.Angle.cos_sin_inj hc hs)
  exact ⟨k, by linarith⟩

theorem kj_angle {a b : ℝ} (ha0 : 0 ≤ a) (ha1 : a < 2 * π) (hb0 : 0 ≤ b) (hb1 : b < 2 * π)
    (h : SameDir a b) : a = b :=
  (pymod_eq_self two_pi_pos ha0 ha1).symm.trans ((pymod_congr two_pi_pos h).trans (pymod_eq_self two_pi_pos hb0 hb1))

theorem kj_sqrt_polar {r : ℝ} (hr : 0 ≤ r) (t : ℝ) : sqrt ((r * cos t) ^ 2 + (r * sin t) ^ 2) = r := by
  rw [show (r * cos t) ^ 2 + (r * sin t) ^ 2 = r ^ 2 by nlinarith [sin_sq_add_cos_sq t], sqrt_sq hr]

theorem kj_recover {r : ℝ} (hr : 0 < r) (t : ℝ) : SameDir (pymod (arctan2 (r * sin t) (r * cos t)) (2 * π)) t := by
  obtain ⟨h1, h2⟩ := kj_polar (r * cos t) (r * sin t)
  rw [kj_sqrt_polar hr.le] at h1 h2
  exact sameDir_of_trig (mul_left_cancel₀ hr.ne' h1) (mul_left_cancel₀ hr.ne' h2)

theorem kj_clip_self {v lo hi : ℝ} (h0 : lo ≤ v) (h1 : v ≤ hi) : clip v lo hi = v := by
  unfold clip; rw [max_eq_left h0, min_eq_left h1]

/-- **C79.** Parameters `(gamma, rho, lam)` that are accepted, with `gamma > 1e-12`, are recovered after
converting to the second cosine and sine moments and back: `rho` exactly and `lam` up to whole turns (when
`gamma rho > 1e-12`; below that the direction is reported as 0), whatever the two `verify` flags. -/
theorem C79_roundtrip_rho {gamma rho lam : ℝ} (v v' : Bool) (hg0 : 1 / 10 ^ 12 < gamma) (hg1 : gamma < 1) (hr0 : 0 ≤ rho)
    (hr1 : rho ≤ 1 - 1 / 10 ^ 12)
    (hf : (rho * cos lam - gamma) ^ 2 + (rho * sin lam) ^ 2 ≤ (1 - gamma) ^ 2 + 1 / 10 ^ 12) :
    ∃ alpha2 beta2 lam', kjToAlphaBeta gamma rho lam v = .ok (alpha2, beta2) ∧
      kjToRhoLam gamma alpha2 beta2 v' = .ok (rho, lam') ∧ 0 ≤ lam' ∧ lam' < 2 * π ∧
      (1 / 10 ^ 12 < gamma * rho → SameDir lam' lam) ∧ (gamma * rho ≤ 1 / 10 ^ 12 → lam' = 0) := by
  have h12 : (0 : ℝ) < 1 / 10 ^ 12 := by positivity
  have hgr : 0 ≤ gamma * rho := mul_nonneg (by linarith) hr0
  have hs := kj_sqrt_polar hgr lam
  refine ⟨gamma * rho * cos lam, gamma * rho * sin lam,
    if gamma * rho ≤ 1 / 10 ^ 12 then 0 else pymod (arctan2 (gamma * rho * sin lam) (gamma * rho * cos lam)) (2 * π), ?_, ?_, ?_⟩
  · unfold kjToAlphaBeta
    rw [if_neg (not_not.2 ⟨by linarith, hg1⟩), if_neg (not_not.2 ⟨hr0, by linarith⟩), if_neg]
    rintro ⟨-, h⟩
    linarith
  · unfold kjToRhoLam
    simp only
    rw [if_neg (not_not.2 ⟨by linarith, hg1⟩), if_neg, if_neg (not_le.2 hg0), hs, mul_div_assoc,
      mul_div_cancel₀ _ (show gamma ≠ 0 by linarith), kj_clip_self hr0 hr1]
    rintro ⟨-, h⟩
    have e : (gamma * rho * cos lam - gamma * gamma) ^ 2 + (gamma * rho * sin lam) ^ 2
        = gamma ^ 2 * ((rho * cos lam - gamma) ^ 2 + (rho * sin lam) ^ 2) := by ring
    rw [e] at h
    have := mul_le_mul_of_nonneg_left hf (sq_nonneg gamma)
    have g2 : gamma ^ 2 ≤ 1 := by nlinarith
    nlinarith
  · refine ⟨?_, ?_, ?_, ?_⟩
    · split_ifs
      · exact le_rfl
      · exact pymod_nonneg two_pi_pos _
    · split_ifs
      · exact two_pi_pos
      · exact pymod_lt two_pi_pos _
    · intro h
      rw [if_neg (not_le.2 h)]
      exact kj_recover (by linarith) lam
    · intro h
      rw [if_pos h]

example : ∃ gamma rho lam : ℝ, 1 / 10 ^ 12 < gamma ∧ gamma < 1 ∧ rho ≤ 1 - 1 / 10 ^ 12 ∧ 1 / 10 ^ 12 < gamma * rho ∧
    (rho * cos lam - gamma) ^ 2 + (rho * sin lam) ^ 2 ≤ (1 - gamma) ^ 2 + 1 / 10 ^ 12 := by
  refine ⟨1 / 2, 1 / 4, π / 3, by norm_num, by norm_num, by norm_num, by norm_num, ?_⟩
  have := sq_sqrt (show (0 : ℝ) ≤ 3 by norm_num)
  rw [cos_pi_div_three, sin_pi_div_three]; nlinarith

/-- **C79.** Second moments `(alpha2, beta2)` in the disc of centre `(gamma², 0)` and radius
`gamma(1 - gamma)`, not within `1e-12` of 0 and not so long that `rho` would pass `1 - 1e-12`, are
recovered exactly after converting to `(rho, lam)` and back. -/
theorem C79_roundtrip_alpha {gamma alpha2 beta2 : ℝ} (v v' : Bool) (hg0 : 1 / 10 ^ 12 < gamma) (hg1 : gamma < 1)
    (hf : (alpha2 - gamma ^ 2) ^ 2 + beta2 ^ 2 ≤ (gamma * (1 - gamma)) ^ 2)
    (h0 : 1 / 10 ^ 12 < sqrt (alpha2 ^ 2 + beta2 ^ 2)) (h1 : sqrt (alpha2 ^ 2 + beta2 ^ 2) ≤ gamma * (1 - 1 / 10 ^ 12)) :
    ∃ rho lam, kjToRhoLam gamma alpha2 beta2 v = .ok (rho, lam) ∧
      kjToAlphaBeta gamma rho lam v' = .ok (alpha2, beta2) ∧
      0 ≤ rho ∧ rho < 1 ∧ 0 ≤ lam ∧ lam < 2 * π := by
  have h12 : (0 : ℝ) < 1 / 10 ^ 12 := by positivity
  have hg : 0 < gamma := by linarith
  obtain ⟨p1, p2⟩ := kj_polar alpha2 beta2
  set r2 := sqrt (alpha2 ^ 2 + beta2 ^ 2) with hr2
  have hd : r2 / gamma ≤ 1 - 1 / 10 ^ 12 := by rw [div_le_iff₀ hg]; linarith
  have hd0 : 0 ≤ r2 / gamma := div_nonneg (by linarith) hg.le
  refine ⟨r2 / gamma, pymod (arctan2 beta2 alpha2) (2 * π), ?_, ?_, hd0, by linarith, pymod_nonneg two_pi_pos _, pymod_lt two_pi_pos _⟩
  · unfold kjToRhoLam
    simp only
    rw [if_neg (not_not.2 ⟨by linarith, hg1⟩), if_neg, if_neg (not_le.2 hg0), ← hr2, kj_clip_self hd0 hd, if_neg (not_le.2 h0)]
    rintro ⟨-, h⟩
    rw [← sq] at h
    linarith
  · have e1 : gamma * (r2 / gamma) = r2 := mul_div_cancel₀ _ hg.ne'
    unfold kjToAlphaBeta
    rw [if_neg (not_not.2 ⟨by linarith, hg1⟩), if_neg (not_not.2 ⟨hd0, by linarith⟩), if_neg, e1, p1, p2]
    rintro ⟨-, h⟩
    rw [div_mul_eq_mul_div, div_mul_eq_mul_div, p1, p2] at h
    have e : (alpha2 / gamma - gamma) ^ 2 + (beta2 / gamma) ^ 2 = ((alpha2 - gamma ^ 2) ^ 2 + beta2 ^ 2) / gamma ^ 2 := by
      field_simp
    rw [e, lt_div_iff₀ (by positivity)] at h
    nlinarith [sq_nonneg gamma, mul_pos h12 (sq_pos_of_pos hg)]

example : ∃ gamma alpha2 beta2 : ℝ, 1 / 10 ^ 12 < gamma ∧ gamma < 1 ∧
    (alpha2 - gamma ^ 2) ^ 2 + beta2 ^ 2 ≤ (gamma * (1 - gamma)) ^ 2 ∧
    1 / 10 ^ 12 < sqrt (alpha2 ^ 2 + beta2 ^ 2) ∧ sqrt (alpha2 ^ 2 + beta2 ^ 2) ≤ gamma * (1 - 1 / 10 ^ 12) := by
  refine ⟨1 / 2, 3 / 20, 1 / 5, by norm_num, by norm_num, by norm_num, ?_, ?_⟩
  · rw [show ((3 : ℝ) / 20) ^ 2 + (1 / 5) ^ 2 = (1 / 4) ^ 2 by norm_num, sqrt_sq (by norm_num)]; norm_num
  · rw [show ((3 : ℝ) / 20) ^ 2 + (1 / 5) ^ 2 = (1 / 4) ^ 2 by norm_num, sqrt_sq (by norm_num)]; norm_num

/-- **C79.** The tolerances of the two checks do not match: there are moments that
`convert_alpha2_beta2(verify=True)` accepts although `convert_rho_lambda(verify=True)` refuses the parameters
it returns with `ValueError`. -/
theorem C79_tolerance_mismatch :
    ∃ alpha2 beta2 rho lam : ℝ, kjToRhoLam (1 / 2) alpha2 beta2 true = .ok (rho, lam) ∧
      kjToAlphaBeta (1 / 2) rho lam true = .error .valueError := by
  set b := sqrt (1 / 16 + 1 / 10 ^ 12) with hb
  have hb2 : b ^ 2 = 1 / 16 + 1 / 10 ^ 12 := sq_sqrt (by positivity)
  obtain ⟨p1, p2⟩ := kj_polar (1 / 4) b
  set r2 := sqrt ((1 / 4 : ℝ) ^ 2 + b ^ 2) with hr2
  have hr22 : r2 ^ 2 = (1 / 4) ^ 2 + b ^ 2 := sq_sqrt (by positivity)
  have hr0 : 0 ≤ r2 := sqrt_nonneg _
  have h1 : 1 / 10 ^ 12 < r2 := by
    rw [hr2]; apply lt_sqrt_of_sq_lt; rw [hb2]; norm_num
  have h2 : r2 ≤ 0.4 := by
    rw [hr2]; apply sqrt_le_iff.2 ⟨by norm_num, ?_⟩; rw [hb2]; norm_num
  refine ⟨1 / 4, b, r2 / (1 / 2), pymod (arctan2 b (1 / 4)) (2 * π), ?_, ?_⟩
  · unfold kjToRhoLam
    simp only
    rw [if_neg (by norm_num), if_neg (by rw [hb2]; norm_num), if_neg (by norm_num), ← hr2, if_neg (not_le.2 h1),
      kj_clip_self (by positivity) (by rw [div_le_iff₀ (by norm_num)]; norm_num at h2 ⊢; linarith)]
  · unfold kjToAlphaBeta
    rw [if_neg (by norm_num), if_neg, if_pos]
    · refine ⟨rfl, ?_⟩
      rw [div_mul_eq_mul_div, div_mul_eq_mul_div, p1, p2, div_pow, hb2]; norm_num
    · rw [not_not]
      refine ⟨by positivity, ?_⟩
      rw [div_lt_iff₀ (by norm_num)]; norm_num at h2 ⊢; linarith

/-- Shrinking the length of a feasible `(rho, lam)` to a bound that is not below `gamma` keeps it feasible. -/
theorem kj_shrink {gamma rc rs c D : ℝ} (hg0 : 0 ≤ gamma) (hgc : gamma ≤ c)
    (hD : (rc - gamma) ^ 2 + rs ^ 2 ≤ D) :
    let rho := clip (sqrt (rc ^ 2 + rs ^ 2)) 0 c
    let lam := pymod (arctan2 rs rc) (2 * π)
    (rho * cos lam - gamma) ^ 2 + (rho * sin lam) ^ 2 ≤ D := by
  intro rho lam
  obtain ⟨p1, p2⟩ := kj_polar rc rs
  have hW0 : 0 ≤ sqrt (rc ^ 2 + rs ^ 2) := sqrt_nonneg _
  have hW2 : sqrt (rc ^ 2 + rs ^ 2) ^ 2 = rc ^ 2 + rs ^ 2 := sq_sqrt (by positivity)
  rcases le_total (sqrt (rc ^ 2 + rs ^ 2)) c with h | h
  · have : rho = sqrt (rc ^ 2 + rs ^ 2) := kj_clip_self hW0 h
    rw [this, p1, p2]; exact hD
  · have hr : rho = c := by
      show min (max _ 0) c = c
      rw [max_eq_left hW0, min_eq_right h]
    rw [hr]
    set W := sqrt (rc ^ 2 + rs ^ 2)
    have hc0 : 0 ≤ c := hg0.trans hgc
    rcases hc0.eq_or_lt with h0 | hcp
    · have hg : gamma = 0 := by linarith
      rw [← h0, hg]
      have := hD
      have : (rc - gamma) ^ 2 + rs ^ 2 ≥ 0 := by positivity
      simp only [zero_mul, sub_zero]
      linarith
    · have hWp : 0 < W := hcp.trans_le h
      have e1 : cos lam = rc / W := by rw [eq_div_iff hWp.ne']; linarith
      have e2 : sin lam = rs / W := by rw [eq_div_iff hWp.ne']; linarith
      refine le_trans ?_ hD
      have hrc : rc ≤ W := by nlinarith [sq_nonneg rs]
      rw [e1, e2]
      have e : (c * (rc / W) - gamma) ^ 2 + (c * (rs / W)) ^ 2 = c ^ 2 * (rc ^ 2 + rs ^ 2) / W ^ 2 - 2 * gamma * c * rc / W + gamma ^ 2 := by
        field_simp; ring
      rw [e, ← hW2, mul_div_assoc, div_self (by positivity), mul_one]
      have e' : (rc - gamma) ^ 2 + rs ^ 2 = W ^ 2 - 2 * gamma * rc + gamma ^ 2 := by rw [hW2]; ring
      rw [e']
      have h3 : 2 * gamma * rc - 2 * gamma * c * rc / W = 2 * gamma * (rc / W) * (W - c) := by field_simp
      have h4 : rc / W ≤ 1 := by rw [div_le_one hWp]; exact hrc
      have h5 : 2 * gamma * (rc / W) * (W - c) ≤ 2 * gamma * 1 * (W - c) := by
        apply mul_le_mul_of_nonneg_right _ (by linarith)
        apply mul_le_mul_of_nonneg_left h4 (by linarith)
      nlinarith

/-- **C79.** Whatever auxiliary coordinates `(s, phi)` an optimiser proposes, the parameters built from them
satisfy the ranges and the feasibility constraint exactly. -/
theorem C79_aux_feasible {gamma : ℝ} (hg0 : 0 ≤ gamma) (hg1 : gamma ≤ 1 - 1 / 10 ^ 9) (s phi : ℝ) :
    ∃ rho lam, kjFromAux gamma s phi = (rho, lam) ∧ 0 ≤ rho ∧ rho ≤ 1 - 1 / 10 ^ 9 ∧ 0 ≤ lam ∧ lam < 2 * π ∧
      (rho * cos lam - gamma) ^ 2 + (rho * sin lam) ^ 2 ≤ (1 - gamma) ^ 2 := by
  refine ⟨_, _, rfl, (clip_mem (by norm_num)).1, (clip_mem (by norm_num)).2, pymod_nonneg two_pi_pos _,
    pymod_lt two_pi_pos _, ?_⟩
  rw [kj_clip_self hg0 hg1]
  obtain ⟨s0, s1⟩ := clip_mem (v := s) (lo := 0) (hi := 1 - 1 / 10 ^ 9) (by norm_num)
  refine kj_shrink hg0 hg1 ?_
  set sc := clip s 0 (1 - 1 / 10 ^ 9)
  have e : (gamma + (1 - gamma) * sc * cos (pymod phi (2 * π)) - gamma) ^ 2 + ((1 - gamma) * sc * sin (pymod phi (2 * π))) ^ 2
      = (1 - gamma) ^ 2 * sc ^ 2 := by
    nlinarith [sin_sq_add_cos_sq (pymod phi (2 * π))]
  rw [e]
  have h9 : (0 : ℝ) < 1 / 10 ^ 9 := by positivity
  have : sc ^ 2 ≤ 1 := by nlinarith
  nlinarith [sq_nonneg (1 - gamma)]

theorem kjAux_value {gamma rho lam : ℝ} (hg0 : 0 ≤ gamma) (hg1 : gamma ≤ 1 - 1 / 10 ^ 9) (hr0 : 0 < rho)
    (hr1 : rho ≤ 1 - 1 / 10 ^ 9) (hl0 : 0 ≤ lam) (hl1 : lam < 2 * π)
    (hd0 : (1 - gamma) * (1 / 10 ^ 12) ≤ sqrt ((rho * cos lam - gamma) ^ 2 + (rho * sin lam) ^ 2))
    (hd1 : sqrt ((rho * cos lam - gamma) ^ 2 + (rho * sin lam) ^ 2) ≤ (1 - gamma) * (1 - 1 / 10 ^ 9)) :
    kjAux gamma rho lam = (sqrt ((rho * cos lam - gamma) ^ 2 + (rho * sin lam) ^ 2) / (1 - gamma),
      pymod (arctan2 (rho * sin lam) (rho * cos lam - gamma)) (2 * π)) := by
  have h9 : (0 : ℝ) < 1 / 10 ^ 9 := by positivity
  have h12 : (1 : ℝ) / 10 ^ 12 < 1 / 10 ^ 9 := by norm_num
  have hg : 0 < 1 - gamma := by linarith
  unfold kjAux
  simp only
  rw [kj_clip_self hg0 (show gamma ≤ 1 - 1 / 10 ^ 12 by linarith), kj_clip_self hr0.le (show rho ≤ 1 - 1 / 10 ^ 12 by linarith),
    pymod_eq_self two_pi_pos hl0 hl1, if_neg (by linarith), max_eq_right (by linarith),
    kj_clip_self (div_nonneg (sqrt_nonneg _) hg.le) (by rw [div_le_iff₀ hg]; linarith), if_neg]
  rw [not_lt, le_div_iff₀ hg]; linarith

/-- **C79.** The auxiliary coordinates determine the parameters: going to `(s, phi)` and back returns
`(rho, lam)`, for feasible parameters that are not within `1e-9` of the boundary. -/
theorem C79_aux_inverse {gamma rho lam : ℝ} (hg0 : 0 ≤ gamma) (hg1 : gamma ≤ 1 - 1 / 10 ^ 9) (hr0 : 0 < rho)
    (hr1 : rho ≤ 1 - 1 / 10 ^ 9) (hl0 : 0 ≤ lam) (hl1 : lam < 2 * π)
    (hd0 : (1 - gamma) * (1 / 10 ^ 12) ≤ sqrt ((rho * cos lam - gamma) ^ 2 + (rho * sin lam) ^ 2))
    (hd1 : sqrt ((rho * cos lam - gamma) ^ 2 + (rho * sin lam) ^ 2) ≤ (1 - gamma) * (1 - 1 / 10 ^ 9)) :
    kjFromAux gamma (kjAux gamma rho lam).1 (kjAux gamma rho lam).2 = (rho, lam) := by
  have h9 : (0 : ℝ) < 1 / 10 ^ 9 := by positivity
  have h12 : (1 : ℝ) / 10 ^ 12 < 1 / 10 ^ 9 := by norm_num
  have hg : 0 < 1 - gamma := by linarith
  set dc := rho * cos lam - gamma with hdc
  set ds := rho * sin lam with hds
  have hA : kjAux gamma rho lam = (sqrt (dc ^ 2 + ds ^ 2) / (1 - gamma), pymod (arctan2 ds dc) (2 * π)) :=
    kjAux_value hg0 hg1 hr0 hr1 hl0 hl1 hd0 hd1
  obtain ⟨p1, p2⟩ := kj_polar dc ds
  rw [hA]
  unfold kjFromAux
  simp only
  rw [kj_clip_self hg0 hg1, kj_clip_self (div_nonneg (sqrt_nonneg _) hg.le) (by rw [div_le_iff₀ hg]; linarith),
    pymod_eq_self two_pi_pos (pymod_nonneg two_pi_pos _) (pymod_lt two_pi_pos _), mul_div_cancel₀ _ hg.ne', p1, p2,
    show gamma + dc = rho * cos lam by rw [hdc]; ring, hds, kj_sqrt_polar hr0.le, kj_clip_self hr0.le hr1]
  congr 1
  exact kj_angle (pymod_nonneg two_pi_pos _) (pymod_lt two_pi_pos _) hl0 hl1 (kj_recover hr0 lam)

example : kjFromAux (1 / 2) (kjAux (1 / 2) (1 / 4) 0).1 (kjAux (1 / 2) (1 / 4) 0).2 = (1 / 4, 0) := by
  have e : sqrt (((1 : ℝ) / 4 * cos 0 - 1 / 2) ^ 2 + (1 / 4 * sin 0) ^ 2) = 1 / 4 := by
    rw [cos_zero, sin_zero, show ((1 : ℝ) / 4 * 1 - 1 / 2) ^ 2 + (1 / 4 * 0) ^ 2 = (1 / 4) ^ 2 by norm_num, sqrt_sq (by norm_num)]
  exact C79_aux_inverse (by norm_num) (by norm_num) (by norm_num) (by norm_num) le_rfl two_pi_pos
    (by rw [e]; norm_num) (by rw [e]; norm_num)

/-! ## C82: the quantile loop -/

theorem kjBisect_spec {F : ℝ → ℝ} {q : ℝ} (k : ℕ) {L H : ℝ} (h0 : 0 ≤ L) (h1 : L ≤ H) (h2 : H ≤ 2 * π)
    (h3 : L < 2 * π) (hl : L = 0 ∨ F L ≤ q) (hh : H = 2 * π ∨ q < F H) :
    ∃ L' H', 0 ≤ L' ∧ L' ≤ kjBisect F q k L H ∧ kjBisect F q k L H ≤ H' ∧ H' ≤ 2 * π ∧ kjBisect F q k L H < 2 * π ∧
      H' - L' ≤ (H - L) / 2 ^ k ∧ (L' = 0 ∨ F L' ≤ q) ∧ (H' = 2 * π ∨ q < F H') := by
  induction k generalizing L H with
  | zero =>
    refine ⟨L, H, h0, ?_, ?_, h2, ?_, by simp, hl, hh⟩ <;> unfold kjBisect <;> linarith
  | succ k ih =>
    unfold kjBisect
    simp only
    split_ifs with hc
    · obtain ⟨L', H', a, b, c, d, e, f, g⟩ := ih (L := L) (H := 1 / 2 * (L + H)) h0 (by linarith) (by linarith) h3 hl (Or.inr hc)
      refine ⟨L', H', a, b, c, d, e, f.trans (le_of_eq ?_), g⟩
      rw [pow_succ]; field_simp; ring
    · obtain ⟨L', H', a, b, c, d, e, f, g⟩ := ih (L := 1 / 2 * (L + H)) (H := H) (by linarith) (by linarith) h2 (by linarith)
        (Or.inr (not_lt.1 hc)) hh
      refine ⟨L', H', a, b, c, d, e, f.trans (le_of_eq ?_), g⟩
      rw [pow_succ]; field_simp; ring

theorem kjNewton_spec {F f : ℝ → ℝ} {q : ℝ} (n : ℕ) (b : KJBr) (h0 : 0 ≤ b.lo) (h1 : b.lo ≤ b.theta) (h2 : b.theta ≤ b.hi)
    (h3 : b.hi ≤ 2 * π) (h4 : b.theta < 2 * π) (hl : b.lo = 0 ∨ F b.lo ≤ q) (hh : b.hi = 2 * π ∨ q < F b.hi) :
    ∃ L H, 0 ≤ L ∧ L ≤ kjNewton F f q n b ∧ kjNewton F f q n b ≤ H ∧ H ≤ 2 * π ∧ kjNewton F f q n b < 2 * π ∧
      H - L ≤ 2 * π / 2 ^ 30 ∧ (L = 0 ∨ F L ≤ q) ∧ (H = 2 * π ∨ q < F H) := by
  have hpi := pi_gt_three
  have h10 : (1 : ℝ) / 10 ^ 10 ≤ 2 * π / 2 ^ 30 := by
    rw [le_div_iff₀ (by positivity)]
    refine le_trans (b := 2 * 3) (by norm_num) (by linarith)
  induction n generalizing b with
  | zero =>
    obtain ⟨L, H, a1, a2, a3, a4, a5, a6, a7⟩ := kjBisect_spec (F := F) (q := q) 30 h0 (h1.trans h2) h3 (by linarith) hl hh
    refine ⟨L, H, a1, a2, a3, a4, a5, a6.trans ?_, a7⟩
    gcongr
    linarith
  | succ n ih =>
    unfold kjNewton
    simp only
    by_cases hc : |F b.theta - q| ≤ 1 / 10 ^ 12 ∧ b.hi - b.lo ≤ 1 / 10 ^ 10
    · rw [if_pos hc]
      exact ⟨b.lo, b.hi, h0, h1, h2, h3, h4, hc.2.trans h10, hl, hh⟩
    · rw [if_neg hc]
      obtain ⟨lo, hi, elo, ehi, l0, lth, hth, h22, lh, hl', hh'⟩ : ∃ lo hi,
          (if 0 < F b.theta - q then b.lo else max b.lo b.theta) = lo ∧
          (if 0 < F b.theta - q then min b.hi b.theta else b.hi) = hi ∧
          0 ≤ lo ∧ lo ≤ b.theta ∧ b.theta ≤ hi ∧ hi ≤ 2 * π ∧ lo ≤ hi ∧
          (lo = 0 ∨ F lo ≤ q) ∧ (hi = 2 * π ∨ q < F hi) := by
        by_cases hr : 0 < F b.theta - q
        · refine ⟨b.lo, b.theta, by rw [if_pos hr], by rw [if_pos hr, min_eq_right h2], h0, h1, le_rfl, by linarith, h1, hl,
            Or.inr (by linarith)⟩
        · refine ⟨b.theta, b.hi, by rw [if_neg hr, max_eq_right h1], by rw [if_neg hr], by linarith, le_rfl, h2, h3, h2,
            Or.inr (by linarith), hh⟩
      rw [elo, ehi]
      have hmid : lo ≤ 1 / 2 * (lo + hi) ∧ 1 / 2 * (lo + hi) ≤ hi ∧ 1 / 2 * (lo + hi) < 2 * π :=
        ⟨by linarith, by linarith, by linarith⟩
      by_cases hf : f b.theta ≤ 0
      · rw [if_pos hf]
        exact ih ⟨1 / 2 * (lo + hi), lo, hi⟩ l0 hmid.1 hmid.2.1 h22 hmid.2.2 hl' hh'
      · rw [if_neg hf]
        obtain ⟨t, et, t0, t1, t2⟩ : ∃ t, (if b.theta - (F b.theta - q) / f b.theta ≤ lo ∨ hi ≤ b.theta - (F b.theta - q) / f b.theta
            then 1 / 2 * (lo + hi) else b.theta - (F b.theta - q) / f b.theta) = t ∧ lo ≤ t ∧ t ≤ hi ∧ t < 2 * π := by
          by_cases hx : b.theta - (F b.theta - q) / f b.theta ≤ lo ∨ hi ≤ b.theta - (F b.theta - q) / f b.theta
          · exact ⟨_, if_pos hx, hmid⟩
          · refine ⟨_, if_neg hx, ?_⟩
            push Not at hx
            exact ⟨hx.1.le, hx.2.le, by linarith [hx.2]⟩
        rw [et]
        by_cases hw : hi - lo ≤ 1 / 10 ^ 10
        · rw [if_pos hw]
          exact ⟨lo, hi, l0, t0, t1, h22, t2, hw.trans h10, hl', hh'⟩
        · rw [if_neg hw]
          exact ih ⟨t, lo, hi⟩ l0 t0 t1 h22 t2 hl' hh'

/-- **C82.** The Kato-Jones quantile loop, for every function `F` used as cdf and every `f` used for the
Newton steps, returns an angle of `[0, 2π)` inside a bracket of width at most `2π/2^30` that contains the
quantile. -/
theorem C82_katojones_solver (F f : ℝ → ℝ) (q theta0 : ℝ) (n : ℕ) (h0 : 0 ≤ theta0) (h1 : theta0 < 2 * π) :
    let theta := kjNewton F f q n ⟨theta0, 0, 2 * π⟩
    ∃ L H, 0 ≤ L ∧ L ≤ theta ∧ theta ≤ H ∧ H ≤ 2 * π ∧ theta < 2 * π ∧ H - L ≤ 2 * π / 2 ^ 30 ∧
      (L = 0 ∨ F L ≤ q) ∧ (H = 2 * π ∨ q < F H) :=
  kjNewton_spec n ⟨theta0, 0, 2 * π⟩ le_rfl h0 h1.le le_rfl h1 (Or.inl rfl) (Or.inl rfl)

/-- The density is bounded. -/
theorem kjDensity_le {gamma rho : ℝ} (hg0 : 0 ≤ gamma) (h0 : 0 ≤ rho) (h1 : rho < 1) (mu lam x : ℝ) :
    kjDensity mu gamma rho lam x ≤ (1 + 2 * gamma / (1 - rho)) / (2 * π) := by
  have hS := kj_hasSum h0 h1 (x - mu) lam
  have hG := hasSum_geometric_of_lt_one h0 h1
  have hle : (cos (x - mu) - rho * cos lam) / (1 + rho ^ 2 - 2 * rho * cos (x - mu - lam)) ≤ (1 - rho)⁻¹ := by
    refine hasSum_le (fun p => ?_) hS hG
    calc rho ^ p * cos (((p : ℝ) + 1) * (x - mu) - p * lam) ≤ rho ^ p * 1 := by
          gcongr
          exact cos_le_one _
      _ = rho ^ p := mul_one _
  unfold kjDensity
  rw [mul_div_assoc, div_eq_mul_inv (2 * gamma)]
  gcongr

/-- **C82.** For a Kato-Jones density of at least `2e-9` everywhere, the returned quantile of a probability
between `1e-12` and `1 - 1e-5 - 1e-12` carries a probability mass within `1e-12 + (1 + 2γ/(1-ρ))/2^30` of it. -/
theorem C82_katojones {mu gamma rho lam q : ℝ} (hm0 : 0 ≤ mu) (hm1 : mu < 2 * π) (hg0 : 1 / 10 ^ 12 < gamma)
    (hg1 : gamma ≤ 1 - 1 / 10 ^ 12) (hr0 : 1 / 10 ^ 12 < rho) (hr1 : rho ≤ 0.995) (hl0 : 0 ≤ lam) (hl1 : lam < 2 * π)
    (hd : ∀ t, 2 / 10 ^ 9 ≤ kjDensity mu gamma rho lam t) (hq0 : 1 / 10 ^ 12 < q) (hq1 : q < 1 - 1 / 10 ^ 5 - 1 / 10 ^ 12) :
    ∃ theta, distPpf katojones q ⟨mu, gamma, rho, lam⟩ = some theta ∧ 0 ≤ theta ∧ theta < 2 * π ∧
      |(∫ t in (0 : ℝ)..theta, kjDensity mu gamma rho lam t) - q| ≤ 1 / 10 ^ 12 + (1 + 2 * gamma / (1 - rho)) / 2 ^ 30 := by
  have h12 : (0 : ℝ) < 1 / 10 ^ 12 := by positivity
  have hr2 : rho ≤ 1 - 1 / 10 ^ 12 := hr1.trans (by norm_num)
  have hq1' : q < 1 := hq1.trans (by norm_num)
  set s : KJ := ⟨mu, gamma, rho, lam⟩ with hs
  have hf := (C78_constraint_exact (mu := mu) (lam := lam) (gamma := gamma) (rho := rho) (by linarith) (by linarith)
    (by linarith) (by linarith)).1 (fun x => le_trans (by positivity) (hd x))
  have harg : katojones.argcheck s :=
    ⟨⟨hm0, hm1⟩, ⟨by show 0 ≤ gamma; linarith, by show gamma < 1; linarith⟩,
      ⟨by show 0 ≤ rho; linarith, by show rho < 1; linarith⟩, ⟨hl0, hl1⟩, hf.trans (by show _ ≤ (1 - gamma) ^ 2 + _; linarith)⟩
  have hc : kjClean s = s := kjClean_self hm0 hm1 (by show 0 ≤ gamma; linarith) hg1 (by show 0 ≤ rho; linarith) hr2 hl0 hl1
  have hmono := kjPartial_mono (mu := mu) (lam := lam) (gamma := gamma) (rho := rho) (by linarith) (by linarith) (by linarith) hr1 hd
  obtain ⟨e0, e1⟩ := kjPartial_ends mu gamma rho lam (kjTerms gamma rho)
  set G := kjPartial mu gamma rho lam (kjTerms gamma rho) with hG
  set Phi : ℝ → ℝ := fun x => ∫ t in (0 : ℝ)..x, kjDensity mu gamma rho lam t with hPhi
  have hser : ∀ x, kjSeries x s = G x := fun x => kjSeries_eq (s := s) hg0 hg1 hr0 hr2 x
  have herr : ∀ x, |G x - Phi x| ≤ 1 / 10 ^ 12 := fun x => by
    rw [← hser]; exact kjSeries_err (s := s) hg0 hg1 hr0 hr1 x
  have hF : ∀ x, 0 ≤ x → x < 2 * π → kjCdfSingle s x = G x := by
    intro x hx0 hx1
    have p0 : 0 ≤ G x := by rw [← e0]; exact hmono.monotone hx0
    have p1 : G x < 1 := by rw [← e1]; exact hmono hx1
    unfold kjCdfSingle
    rw [hser, pymod_one_near p0 p1, kj_clip_self p0 p1.le]
  have hcont := kjDensity_continuous (rho := rho) (by linarith) (by linarith) mu gamma lam
  have hii : ∀ a b, IntervalIntegrable (kjDensity mu gamma rho lam) volume a b := fun a b => hcont.intervalIntegrable a b
  have hinc : ∀ a b, a ≤ b → 0 ≤ Phi b - Phi a ∧ Phi b - Phi a ≤ (1 + 2 * gamma / (1 - rho)) / (2 * π) * (b - a) := by
    intro a b hab
    have e : Phi b - Phi a = ∫ t in a..b, kjDensity mu gamma rho lam t :=
      intervalIntegral.integral_interval_sub_left (hii 0 b) (hii 0 a)
    rw [e]
    constructor
    · exact intervalIntegral.integral_nonneg hab fun t _ => le_trans (by positivity) (hd t)
    · have := intervalIntegral.integral_mono_on hab (hii a b) intervalIntegrable_const
        (fun t _ => kjDensity_le (gamma := gamma) (rho := rho) (by linarith) (by linarith) (by linarith) mu lam t)
      rw [intervalIntegral.integral_const, smul_eq_mul] at this
      linarith
  obtain ⟨L, H, a1, a2, a3, a4, a5, a6, a7, a8⟩ := C82_katojones_solver (kjCdfSingle s) (fun t => kjPdf t s) q (q * (2 * π)) 60
    (by have := pi_pos; have : 0 < q := by linarith
        positivity) (by nlinarith [pi_pos])
  set theta := kjNewton (kjCdfSingle s) (fun t => kjPdf t s) q 60 ⟨q * (2 * π), 0, 2 * π⟩ with hth
  have hLq : G L ≤ q := by
    rcases a7 with h | h
    · rw [h, e0]; linarith
    · rwa [hF L a1 (by linarith)] at h
  have hHq : q ≤ G H := by
    rcases a8 with h | h
    · rw [h, e1]; linarith
    · rcases a4.eq_or_lt with h' | h'
      · rw [h', e1]; linarith
      · rw [hF H (by linarith) h'] at h; exact h.le
  refine ⟨theta, ?_, by linarith, a5, ?_⟩
  · unfold distPpf
    rw [if_neg (not_not.mpr harg), if_neg (by linarith), if_neg (by linarith), if_pos ⟨by linarith, hq1'⟩]
    show some (kjPpf q s) = _
    unfold kjPpf
    simp only [hc]
    rw [if_neg (not_le.2 hg0), if_neg, if_neg, ← hth, pymod_eq_self two_pi_pos (by linarith) a5]
    · unfold isclose rtolDefault
      rw [not_le, abs_one, abs_of_neg (show q - 1 < 0 by linarith)]
      norm_num at hq1 ⊢
      linarith
    · unfold isclose rtolDefault
      rw [not_le, sub_zero, abs_zero, mul_zero, add_zero, abs_of_pos (show 0 < q by linarith)]
      exact hq0
  · have b1 := abs_le.1 (herr L)
    have b2 := abs_le.1 (herr H)
    have c1 := hinc L theta a2
    have c2 := hinc theta H a3
    have c3 := hinc L H (a2.trans a3)
    have hM : 0 ≤ (1 + 2 * gamma / (1 - rho)) / (2 * π) := by
      have : 0 < 1 - rho := by linarith
      have : 0 < gamma := by linarith
      positivity
    have c4 : (1 + 2 * gamma / (1 - rho)) / (2 * π) * (H - L) ≤ (1 + 2 * gamma / (1 - rho)) / 2 ^ 30 := by
      refine (mul_le_mul_of_nonneg_left a6 hM).trans (le_of_eq ?_)
      have := pi_ne_zero
      generalize 1 + 2 * gamma / (1 - rho) = z
      field_simp
    show |Phi theta - q| ≤ _
    rw [abs_le]
    constructor <;> linarith [c1.1, c2.1, c3.2, b1.1, b1.2, b2.1, b2.2]

/-- **C82.** Outside that range: probabilities above `1 - 1e-5 - 1e-12` all get the quantile `2π`. -/
theorem C82_katojones_upper {mu gamma rho lam q : ℝ} (ha : katojones.argcheck ⟨mu, gamma, rho, lam⟩)
    (hg : 1 / 10 ^ 12 < gamma) (hq0 : 1 - 1 / 10 ^ 5 - 1 / 10 ^ 12 ≤ q) (hq1 : q ≤ 1) :
    distPpf katojones q ⟨mu, gamma, rho, lam⟩ = some (2 * π) := by
  have hq : 0 < q := lt_of_lt_of_le (by norm_num) hq0
  unfold distPpf
  rw [if_neg (not_not.mpr ha), if_neg hq.ne']
  rcases hq1.eq_or_lt with h | h
  · rw [if_pos h]
  · rw [if_neg h.ne, if_pos ⟨hq, h⟩]
    show some (kjPpf q _) = _
    unfold kjPpf
    have hcl : 1 / 10 ^ 12 < (kjClean ⟨mu, gamma, rho, lam⟩).gamma := by
      show 1 / 10 ^ 12 < min (max gamma 0) (1 - 1 / 10 ^ 12)
      exact lt_min (lt_of_lt_of_le hg (le_max_left _ _)) (by norm_num)
    simp only
    rw [if_neg (not_le.2 hcl), if_neg, if_pos]
    · unfold isclose rtolDefault
      rw [abs_one, abs_of_neg (show q - 1 < 0 by linarith)]
      norm_num at hq0 ⊢
      linarith
    · unfold isclose rtolDefault
      rw [not_le, sub_zero, abs_of_pos hq, abs_zero, mul_zero, add_zero]
      exact lt_of_lt_of_le (by norm_num) hq0

/-! ## C102: samples -/

/-- **C102.** Kato-Jones samples (`rvs` applies the quantile function to uniform draws): for a density of at
least `2e-9` everywhere, the set of uniform draws whose sample lies in `[0, x]` has a measure within
`1.1e-5 + (1 + 2γ/(1-ρ))/2^30` of the probability of `[0, x]`. -/
theorem C102_katojones {mu gamma rho lam x : ℝ} (hm0 : 0 ≤ mu) (hm1 : mu < 2 * π) (hg0 : 1 / 10 ^ 12 < gamma)
    (hg1 : gamma ≤ 1 - 1 / 10 ^ 12) (hr0 : 1 / 10 ^ 12 < rho) (hr1 : rho ≤ 0.995) (hl0 : 0 ≤ lam) (hl1 : lam < 2 * π)
    (hd : ∀ t, 2 / 10 ^ 9 ≤ kjDensity mu gamma rho lam t) (hx0 : 0 ≤ x) (hx1 : x ≤ 2 * π) :
    |volume.real {u | 0 ≤ u ∧ u < 1 ∧ ∃ y, distPpf katojones u ⟨mu, gamma, rho, lam⟩ = some y ∧ y ≤ x}
      - ∫ t in (0 : ℝ)..x, kjDensity mu gamma rho lam t| ≤ 1.1 / 10 ^ 5 + (1 + 2 * gamma / (1 - rho)) / 2 ^ 30 := by
  have h12 : (0 : ℝ) < 1 / 10 ^ 12 := by positivity
  have hrho : 0 < 1 - rho := by have : rho < 1 := lt_of_le_of_lt hr1 (by norm_num)
                                linarith
  have hM : 0 ≤ (1 + 2 * gamma / (1 - rho)) / 2 ^ 30 := by
    have : 0 < gamma := by linarith
    positivity
  set s : KJ := ⟨mu, gamma, rho, lam⟩ with hs
  have hf := (C78_constraint_exact (mu := mu) (lam := lam) (gamma := gamma) (rho := rho) (by linarith) (by linarith)
    (by linarith) (by linarith)).1 (fun x => le_trans (by positivity) (hd x))
  have harg : katojones.argcheck s :=
    ⟨⟨hm0, hm1⟩, ⟨by show 0 ≤ gamma; linarith, by show gamma < 1; linarith⟩,
      ⟨by show 0 ≤ rho; linarith, by show rho < 1; linarith⟩, ⟨hl0, hl1⟩, hf.trans (by show _ ≤ (1 - gamma) ^ 2 + _; linarith)⟩
  have hmass := kj_mass (rho := rho) (by linarith) (by linarith) mu gamma lam
  have hcont := kjDensity_continuous (rho := rho) (by linarith) (by linarith) mu gamma lam
  have hii : ∀ a b, IntervalIntegrable (kjDensity mu gamma rho lam) volume a b := fun a b => hcont.intervalIntegrable a b
  have hmono : ∀ a b, 0 ≤ a → a ≤ b → b ≤ 2 * π → (∫ t in (0 : ℝ)..a, kjDensity mu gamma rho lam t)
      ≤ ∫ t in (0 : ℝ)..b, kjDensity mu gamma rho lam t := by
    intro a b _ hab _
    have e := intervalIntegral.integral_interval_sub_left (hii 0 b) (hii 0 a)
    have := intervalIntegral.integral_nonneg (μ := volume) hab fun t _ => le_trans (by positivity : (0 : ℝ) ≤ 2 / 10 ^ 9) (hd t)
    linarith
  have key : ∀ u, 0 ≤ u → u < 1 → ∃ y, distPpf katojones u s = some y ∧ 0 ≤ y ∧ y ≤ 2 * π ∧
      |(∫ t in (0 : ℝ)..y, kjDensity mu gamma rho lam t) - u| ≤ 1.1 / 10 ^ 5 + (1 + 2 * gamma / (1 - rho)) / 2 ^ 30 := by
    intro u hu0 hu1
    have h5 : (1 : ℝ) / 10 ^ 12 ≤ 1.1 / 10 ^ 5 := by norm_num
    rcases le_or_gt u (1 / 10 ^ 12) with h | h
    · refine ⟨0, ?_, le_rfl, two_pi_pos.le, ?_⟩
      · unfold distPpf
        rw [if_neg (not_not.mpr harg)]
        rcases hu0.eq_or_lt with h0 | h0
        · rw [if_pos h0.symm]
        · rw [if_neg h0.ne', if_neg hu1.ne, if_pos ⟨h0, hu1⟩]
          show some (kjPpf u s) = _
          unfold kjPpf
          have hcl : 1 / 10 ^ 12 < (kjClean s).gamma := by
            show 1 / 10 ^ 12 < min (max gamma 0) (1 - 1 / 10 ^ 12)
            exact lt_min (lt_of_lt_of_le hg0 (le_max_left _ _)) (by norm_num)
          simp only
          rw [if_neg (not_le.2 hcl), if_pos]
          unfold isclose rtolDefault
          rw [sub_zero, abs_of_pos h0, abs_zero, mul_zero, add_zero]
          exact h
      · rw [intervalIntegral.integral_same, zero_sub, abs_neg, abs_of_nonneg hu0]; linarith
    · rcases lt_or_ge u (1 - 1 / 10 ^ 5 - 1 / 10 ^ 12) with h' | h'
      · obtain ⟨y, a, b, c, d⟩ := C82_katojones hm0 hm1 hg0 hg1 hr0 hr1 hl0 hl1 hd h h'
        exact ⟨y, a, b, c.le, d.trans (by linarith)⟩
      · refine ⟨2 * π, C82_katojones_upper harg hg0 h' hu1.le, two_pi_pos.le, le_rfl, ?_⟩
        have h6 : (1 : ℝ) / 10 ^ 5 + 1 / 10 ^ 12 ≤ 1.1 / 10 ^ 5 := by norm_num
        rw [hmass, abs_of_pos (by linarith)]; linarith
  choose! S hS using key
  have hset : {u | 0 ≤ u ∧ u < 1 ∧ ∃ y, distPpf katojones u s = some y ∧ y ≤ x} = {u | 0 ≤ u ∧ u < 1 ∧ S u ≤ x} := by
    ext u
    simp only [Set.mem_ofPred_eq]
    constructor
    · rintro ⟨a, b, y, hy, hyx⟩
      have := (hS u a b).1
      rw [hy] at this
      cases this
      exact ⟨a, b, hyx⟩
    · rintro ⟨a, b, c⟩
      exact ⟨a, b, _, (hS u a b).1, c⟩
  rw [hset]
  have hx01 := hmono 0 x le_rfl hx0 hx1
  rw [intervalIntegral.integral_same] at hx01
  have hx11 := hmono x (2 * π) hx0 hx1 le_rfl
  rw [hmass] at hx11
  exact law_of_inverse (F := fun y => ∫ t in (0 : ℝ)..y, kjDensity mu gamma rho lam t) (by norm_num at hM ⊢; linarith) hx0 hx1 hmono hx01 hx11
    fun u h0 h1 => (hS u h0 h1).2

end Verif
