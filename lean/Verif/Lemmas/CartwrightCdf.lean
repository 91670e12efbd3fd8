import Verif.Lemmas.Cartwright
import Verif.Lemmas.Distn
import Verif.Spec.Families

/-! # Helper lemmas: distribution function and quantiles of Cartwright's distribution -/

set_option autoImplicit false

namespace Verif

open Verif.Spec Real MeasureTheory ProbabilityTheory

/-- The integral of the kernel from 0. -/
noncomputable def cwP (p y : ℝ) : ℝ := ∫ t in (0 : ℝ)..y, cwG p t

lemma cwP_sub {p : ℝ} (hp : 0 < p) (a b : ℝ) : cwP p b - cwP p a = ∫ t in a..b, cwG p t := by
  have hi : ∀ a b, IntervalIntegrable (cwG p) volume a b := fun a b => (cwG_continuous hp).intervalIntegrable a b
  unfold cwP
  exact intervalIntegral.integral_interval_sub_left (hi 0 b) (hi 0 a)

lemma cwG_pos_near (p : ℝ) (hp : 0 < p) {a b : ℝ} (hab : a < b) : ∃ c ∈ Set.Icc a b, 0 < cwG p c := by
  have key : ∃ c ∈ Set.Icc a b, 0 < 1 + cos c := by
    by_cases h : 0 < 1 + cos a
    · exact ⟨a, ⟨le_rfl, hab.le⟩, h⟩
    · have ha : cos a = -1 := by linarith [one_add_cos_nonneg a]
      have hs : sin a = 0 := by nlinarith [sin_sq_add_cos_sq a]
      have hd0 : 0 < min (b - a) π := lt_min (by linarith) pi_pos
      refine ⟨a + min (b - a) π, ⟨by linarith, by linarith [min_le_left (b - a) π]⟩, ?_⟩
      rw [cos_add, ha, hs]
      have : cos (min (b - a) π) < cos 0 := cos_lt_cos_of_nonneg_of_le_pi le_rfl (min_le_right _ _) hd0
      rw [cos_zero] at this
      linarith
  obtain ⟨c, hc, h⟩ := key
  exact ⟨c, hc, mul_pos (cwK_pos hp) (rpow_pos_of_pos h _)⟩

lemma cwP_strictMono {p : ℝ} (hp : 0 < p) : StrictMono (cwP p) := by
  intro a b hab
  have h := intervalIntegral.integral_pos hab (cwG_continuous hp).continuousOn
    (fun t _ => cwG_nonneg hp t) (cwG_pos_near p hp hab)
  rw [← cwP_sub hp] at h
  linarith

lemma cwP_add {p : ℝ} (hp : 0 < p) (y : ℝ) : cwP p (y + 2 * π) = cwP p y + 1 := by
  have h := cwP_sub hp y (y + 2 * π)
  rw [(cwG_periodic p).intervalIntegral_add_eq y 0, zero_add, cwG_mass hp] at h
  linarith

lemma cwP_add_int {p : ℝ} (hp : 0 < p) (y : ℝ) (k : ℤ) : cwP p (y + k * (2 * π)) = cwP p y + k := by
  induction k using Int.induction_on with
  | zero => simp
  | succ n ih =>
    push_cast at ih ⊢
    rw [show y + (n + 1) * (2 * π) = y + n * (2 * π) + 2 * π by ring, cwP_add hp, ih]; ring
  | pred n ih =>
    push_cast at ih ⊢
    have := cwP_add hp (y + (-n - 1) * (2 * π))
    rw [show y + (-n - 1) * (2 * π) + 2 * π = y + -n * (2 * π) by ring, ih] at this
    linarith

lemma cwP_zero (p : ℝ) : cwP p 0 = 0 := by simp [cwP]

lemma cwP_two_pi {p : ℝ} (hp : 0 < p) : cwP p (2 * π) = 1 := cwG_mass hp

lemma cwP_pi {p : ℝ} (hp : 0 < p) : cwP p π = 1 / 2 := cwG_half hp

lemma cwP_continuous {p : ℝ} (hp : 0 < p) : Continuous (cwP p) :=
  intervalIntegral.continuous_primitive (fun a b => (cwG_continuous hp).intervalIntegrable a b) 0

lemma pymod_form (y : ℝ) : ∃ k : ℤ, pymod y (2 * π) = y + k * (2 * π) := by
  obtain ⟨k, hk⟩ := pymod_cong y (2 * π)
  exact ⟨k, by rw [hk]⟩

lemma cwCumul_mod {zeta : ℝ} (hz : 0 < zeta) (y : ℝ) :
    cwCumul zeta (pymod y (2 * π)) = cwP (1 / zeta) (pymod y (2 * π)) :=
  cwCumul_eq hz (pymod_nonneg two_pi_pos _) (pymod_lt two_pi_pos _).le

/-- Mass of the angles between 0 and `x`. -/
lemma cwPdf_integral {zeta : ℝ} (hz : 0 < zeta) (mu x : ℝ) :
    ∫ t in (0 : ℝ)..x, cwPdf t mu zeta = cwP (1 / zeta) (x - mu) - cwP (1 / zeta) (-mu) := by
  rw [cwP_sub (by positivity : 0 < 1 / zeta)]
  simp only [cwPdf_eq]
  rw [intervalIntegral.integral_comp_sub_right (fun t => cwG (1 / zeta) t) mu, zero_sub]

lemma cwPdf_integral_lt {zeta : ℝ} (hz : 0 < zeta) {mu x : ℝ} (h : x < 2 * π) :
    ∫ t in (0 : ℝ)..x, cwPdf t mu zeta < 1 := by
  have hp : 0 < 1 / zeta := by positivity
  rw [cwPdf_integral hz]
  have h1 := cwP_strictMono hp (by linarith : x - mu < -mu + 2 * π)
  rw [cwP_add hp] at h1
  linarith

lemma cwPdf_integral_nonneg {zeta : ℝ} (hz : 0 < zeta) {mu x : ℝ} (h : 0 ≤ x) :
    0 ≤ ∫ t in (0 : ℝ)..x, cwPdf t mu zeta := by
  have hp : 0 < 1 / zeta := by positivity
  rw [cwPdf_integral hz]
  have h1 := (cwP_strictMono hp).monotone (by linarith : -mu ≤ x - mu)
  linarith

lemma clip01 {y : ℝ} (h0 : 0 ≤ y) (h1 : y ≤ 1) : clip y 0 1 = y := by
  unfold clip
  rw [max_eq_left h0, min_eq_left h1]

/-- The distribution function before the comparison with `2π`. -/
lemma cwCdf_core {zeta mu x : ℝ} (hz : 0 < zeta) (h0 : 0 ≤ x) (h1 : x < 2 * π) :
    (if pymod (-mu) (2 * π) ≤ pymod (x - mu) (2 * π)
      then clip (cwCumul zeta (pymod (x - mu) (2 * π)) - cwCumul zeta (pymod (-mu) (2 * π))) 0 1
      else 1 - clip (cwCumul zeta (pymod (-mu) (2 * π)) - cwCumul zeta (pymod (x - mu) (2 * π))) 0 1)
      = ∫ t in (0 : ℝ)..x, cwPdf t mu zeta := by
  have hp : 0 < 1 / zeta := by positivity
  have hpi := two_pi_pos
  have hI0 := cwPdf_integral_nonneg hz (mu := mu) h0
  have hI1 := cwPdf_integral_lt hz (mu := mu) h1
  have hI := cwPdf_integral hz mu x
  obtain ⟨k1, e1⟩ := pymod_form (-mu)
  obtain ⟨k2, e2⟩ := pymod_form (x - mu)
  have a1 := pymod_nonneg hpi (-mu)
  have a2 := pymod_lt hpi (-mu)
  have b1 := pymod_nonneg hpi (x - mu)
  have b2 := pymod_lt hpi (x - mu)
  rw [cwCumul_mod hz, cwCumul_mod hz]
  have f1 : cwP (1 / zeta) (pymod (-mu) (2 * π)) = cwP (1 / zeta) (-mu) + k1 := by rw [e1, cwP_add_int hp]
  have f2 : cwP (1 / zeta) (pymod (x - mu) (2 * π)) = cwP (1 / zeta) (x - mu) + k2 := by rw [e2, cwP_add_int hp]
  rw [f1, f2]
  by_cases h : pymod (-mu) (2 * π) ≤ pymod (x - mu) (2 * π)
  · rw [if_pos h]
    have hk : k2 = k1 := by
      rw [e1] at a1 a2 h
      rw [e2] at b1 b2 h
      have l1 : ((k2 - k1 : ℤ) : ℝ) * (2 * π) < 1 * (2 * π) := by push_cast; linarith
      have l2 : (-1 : ℝ) * (2 * π) < ((k2 - k1 : ℤ) : ℝ) * (2 * π) := by push_cast; linarith
      have m1 := lt_of_mul_lt_mul_right l1 hpi.le
      have m2 := lt_of_mul_lt_mul_right l2 hpi.le
      have n1 : k2 - k1 < 1 := by exact_mod_cast m1
      have n2 : -1 < k2 - k1 := by exact_mod_cast m2
      omega
    rw [hk, show cwP (1 / zeta) (x - mu) + k1 - (cwP (1 / zeta) (-mu) + k1) = cwP (1 / zeta) (x - mu) - cwP (1 / zeta) (-mu)
      by ring, ← hI, clip01 hI0 hI1.le]
  · rw [if_neg h]
    have hk : k2 = k1 - 1 := by
      push Not at h
      rw [e1] at a1 a2 h
      rw [e2] at b1 b2 h
      have l1 : ((k2 - k1 : ℤ) : ℝ) * (2 * π) < 0 * (2 * π) := by push_cast; linarith
      have l2 : (-2 : ℝ) * (2 * π) < ((k2 - k1 : ℤ) : ℝ) * (2 * π) := by push_cast; linarith
      have m1 := lt_of_mul_lt_mul_right l1 hpi.le
      have m2 := lt_of_mul_lt_mul_right l2 hpi.le
      have n1 : k2 - k1 < 0 := by exact_mod_cast m1
      have n2 : -2 < k2 - k1 := by exact_mod_cast m2
      omega
    rw [hk]
    push_cast
    rw [show cwP (1 / zeta) (-mu) + k1 - (cwP (1 / zeta) (x - mu) + (k1 - 1))
      = 1 - (cwP (1 / zeta) (x - mu) - cwP (1 / zeta) (-mu)) by ring, ← hI, clip01 (by linarith) (by linarith)]
    ring

lemma cwCdf_eq {zeta mu x : ℝ} (hz : 0 < zeta) (h0 : 0 ≤ x) (h1 : x ≤ 2 * π - 7 / 10 ^ 5) :
    cwCdf x mu zeta = ∫ t in (0 : ℝ)..x, cwPdf t mu zeta := by
  have hpi := pi_lt_d2
  have hI0 := cwPdf_integral_nonneg hz (mu := mu) h0
  have hI1 := cwPdf_integral_lt hz (mu := mu) (x := x) (by norm_num at h1; linarith)
  have h14 : (1 : ℝ) / 10 ^ 14 < 7 / 10 ^ 5 := by norm_num
  unfold cwCdf
  rw [wrap2pi_self h0 (by linarith [wrapTol_lt])]
  simp only
  rw [cwCdf_core hz h0 (by norm_num at h1; linarith), if_neg, if_neg (not_lt.mpr hI0), clip01 hI0 hI1.le]
  unfold isclose rtolDefault atolDefault
  rw [not_le, abs_of_pos two_pi_pos, abs_of_neg (by norm_num at h1; linarith)]
  norm_num at h1 ⊢
  linarith

lemma cwCdf_close {zeta mu x : ℝ} (h0 : 2 * π - 6 / 10 ^ 5 ≤ x) (h1 : x ≤ 2 * π) : cwCdf x mu zeta = 1 := by
  have hpi := pi_gt_d2
  have h6 : (6 : ℝ) / 10 ^ 5 < 1 := by norm_num
  unfold cwCdf
  simp only
  rw [if_pos]
  by_cases hc : x < 2 * π - wrapTol
  · rw [wrap2pi_self (by linarith) hc]
    unfold isclose rtolDefault atolDefault
    rw [abs_of_nonpos (by linarith), abs_of_pos two_pi_pos]
    norm_num at h0 ⊢
    linarith
  · rw [wrap2pi_close (by rw [abs_of_nonpos (by linarith)]; linarith [not_lt.mp hc])]
    unfold isclose rtolDefault atolDefault
    rw [sub_self, abs_zero]
    positivity

lemma cwP_reflect {p : ℝ} (hp : 0 < p) (y : ℝ) : cwP p (2 * π - y) = 1 - cwP p y := by
  have h := cwP_sub hp y (2 * π)
  rw [cwP_two_pi hp, cwG_reflect, show 2 * π - 2 * π = 0 by ring] at h
  exact h.symm

lemma cwAngle_inv {binv : ℝ → ℝ → ℝ → ℝ} {zeta s : ℝ} (hb : InvertsBeta binv (1 / 2) (1 / zeta + 1 / 2)) (hz : 0 < zeta) (h0 : 0 ≤ s) (h1 : s ≤ 1 / 2) :
    let phi := 2 * arcsin √(clip (binv (1 / 2) (1 / zeta + 1 / 2) (clip (s / cwHalf zeta) 0 1)) 0 1)
    0 ≤ phi ∧ phi ≤ π ∧ cwP (1 / zeta) phi = s := by
  have hp : 0 < 1 / zeta := by positivity
  rw [cwHalf_eq hz, show s / (1 / 2) = 2 * s by ring, clip01 (by linarith : 0 ≤ 2 * s) (by linarith)]
  obtain ⟨i0, i1, i2⟩ := hb (2 * s) (by linarith) (by linarith)
  rw [clip01 i0 i1]
  obtain ⟨T, hT⟩ : ∃ T, T = binv (1 / 2) (1 / zeta + 1 / 2) (2 * s) := ⟨_, rfl⟩
  rw [← hT] at i0 i1 i2 ⊢
  have hq0 := sqrt_nonneg T
  have hq1 : √T ≤ 1 := by rw [sqrt_le_left (by norm_num)]; simpa using i1
  have p0 : 0 ≤ 2 * arcsin √T := by have := arcsin_nonneg.mpr hq0; linarith
  have p1 : 2 * arcsin √T ≤ π := by have := arcsin_le_pi_div_two √T; linarith
  refine ⟨p0, p1, ?_⟩
  have h := betainc_sin hp p0 p1
  rw [show 1 / 2 * (2 * arcsin √T) = arcsin √T by ring, sin_arcsin (by linarith) hq1, sq_sqrt i0] at h
  unfold betainc at h
  rw [i2] at h
  unfold cwP
  linarith

/-- The quantile function at inner probabilities. -/
lemma cwPpf_inner {binv : ℝ → ℝ → ℝ → ℝ} {zeta mu q : ℝ} (hb : InvertsBeta binv (1 / 2) (1 / zeta + 1 / 2)) (hz : 0 < zeta) (h0 : 1 / 10 ^ 12 < q)
    (h1 : q < 1 - 1 / 10 ^ 12) :
    0 ≤ cwPpf binv q mu zeta ∧ cwPpf binv q mu zeta < 2 * π ∧
      ∫ t in (0 : ℝ)..cwPpf binv q mu zeta, cwPdf t mu zeta = q := by
  have hp : 0 < 1 / zeta := by positivity
  have hpi := two_pi_pos
  have h12 : (0 : ℝ) < 1 / 10 ^ 12 := by positivity
  obtain ⟨s, hs⟩ : ∃ s, s = pymod (cwCumul zeta (pymod (-(pymod mu (2 * π))) (2 * π)) + q) 1 := ⟨_, rfl⟩
  have s0 : 0 ≤ s := hs ▸ pymod_nonneg one_pos _
  have s1 : s < 1 := hs ▸ pymod_lt one_pos _
  obtain ⟨phi, hphi⟩ : ∃ phi, phi = if s ≤ 1 / 2
      then 2 * arcsin √(clip (binv (1 / 2) (1 / zeta + 1 / 2) (clip (s / cwHalf zeta) 0 1)) 0 1)
      else 2 * π - 2 * arcsin √(clip (binv (1 / 2) (1 / zeta + 1 / 2) (clip ((1 - s) / cwHalf zeta) 0 1)) 0 1) := ⟨_, rfl⟩
  have hP : cwP (1 / zeta) phi = s := by
    rw [hphi]
    by_cases h : s ≤ 1 / 2
    · rw [if_pos h]; exact (cwAngle_inv hb hz s0 h).2.2
    · rw [if_neg h, cwP_reflect hp, (cwAngle_inv hb hz (by linarith) (by linarith)).2.2]; ring
  have he : cwPpf binv q mu zeta = pymod (pymod mu (2 * π) + phi) (2 * π) := by
    unfold cwPpf
    simp only
    rw [← hs, ← hphi, if_neg, if_neg]
    · unfold isclose
      rw [sub_zero, abs_of_pos (by linarith), zero_mul, add_zero, not_le]; exact h0
    · unfold isclose
      rw [abs_of_neg (by linarith), zero_mul, add_zero, not_le]; linarith
  rw [he]
  have t0 := pymod_nonneg hpi (pymod mu (2 * π) + phi)
  have t1 := pymod_lt hpi (pymod mu (2 * π) + phi)
  refine ⟨t0, t1, ?_⟩
  have f0 := cwPdf_integral_nonneg hz (mu := mu) t0
  have f1 := cwPdf_integral_lt hz (mu := mu) t1
  have f := cwPdf_integral hz mu (pymod (pymod mu (2 * π) + phi) (2 * π))
  obtain ⟨i, ei⟩ := pymod_form mu
  obtain ⟨j, ej⟩ := pymod_form (pymod mu (2 * π) + phi)
  obtain ⟨k, ek⟩ := pymod_form (-(pymod mu (2 * π)))
  obtain ⟨l, el⟩ := pymod_cong (cwCumul zeta (pymod (-(pymod mu (2 * π))) (2 * π)) + q) 1
  have hH : cwCumul zeta (pymod (-(pymod mu (2 * π))) (2 * π)) = cwP (1 / zeta) (-mu) + (k - i : ℤ) := by
    rw [cwCumul_mod hz, ek, ei, ← cwP_add_int hp]
    congr 1; push_cast; ring
  rw [← hs, hH] at el
  have hF : cwP (1 / zeta) (pymod (pymod mu (2 * π) + phi) (2 * π) - mu) = s + (i + j : ℤ) := by
    rw [← hP, ← cwP_add_int hp, ej, ei]
    congr 1; push_cast; ring
  rw [f, hF, el] at f0 f1 ⊢
  have e : cwP (1 / zeta) (-mu) + ((k - i : ℤ) : ℝ) + q + (l : ℝ) * 1 + ((i + j : ℤ) : ℝ) - cwP (1 / zeta) (-mu)
      = q + ((k + l + j : ℤ) : ℝ) := by push_cast; ring
  rw [e] at f0 f1 ⊢
  have n0 : (-1 : ℝ) < ((k + l + j : ℤ) : ℝ) := by linarith
  have n1 : ((k + l + j : ℤ) : ℝ) < 1 := by linarith
  have m0 : -1 < k + l + j := by exact_mod_cast n0
  have m1 : k + l + j < 1 := by exact_mod_cast n1
  have : k + l + j = 0 := by omega
  rw [this]; simp

end Verif
