import Verif.Lemmas.InvBatCode
import Verif.Props.DistJonesPewsey

/-! # Properties of the inverse Batschelet distribution -/

set_option autoImplicit false

namespace Verif

open Real MeasureTheory Spec

/-! ## C110: the density -/

lemma invbatCached_empty (kappa lmbd : ℝ) : (invbatCached .empty kappa lmbd).1 = invbatC kappa lmbd := rfl

/-- The mode. -/
theorem invbatG_max {kappa : ℝ} (hk : 0 ≤ kappa) {nu lmbd : ℝ} (hn : |nu| ≤ 1) (hl : |lmbd| ≤ 1) (phi : ℝ) :
    invbatG kappa nu lmbd phi ≤ invbatG kappa nu lmbd (-2 * nu) := by
  have e : invbatU nu lmbd (-2 * nu) = 0 := by
    refine (invbatAngle_strictMono hn hl).injective ?_
    rw [invbatAngle_U hn hl]
    unfold invbatAngle
    simp only [sin_zero, mul_zero, sub_zero, cos_zero]; ring
  refine (invbatG_le hk _ _ _).trans (le_of_eq ?_)
  unfold invbatG invbatShape
  rw [e]; simp

theorem shift_integral {g : ℝ → ℝ} (hg : Function.Periodic g (2 * π)) (xi : ℝ) :
    ∫ x in (0 : ℝ)..(2 * π), g (x - xi) = ∫ t in (-π)..π, g t := by
  rw [intervalIntegral.integral_comp_sub_right g xi]
  have := hg.intervalIntegral_add_eq (0 - xi) (-π)
  rw [show 0 - xi + 2 * π = 2 * π - xi by ring, show -π + 2 * π = π by ring] at this
  exact this

/-- **C110.** `pdf` of a fresh object is the inverse Batschelet density up to a relative error of `1e-11`: it is
positive, continuous and periodic, has mass 1 up to `1e-11`, follows the curve that defines the family, and is largest at
`xi - 2 nu`. -/
theorem C110_density (solve : (ℝ → ℝ) → Option ℝ) (hs : FindsRoots solve) (xi kappa nu lmbd : ℝ)
    (h : InvBatRegular xi kappa nu lmbd) :
    ∃ f : ℝ → ℝ, Continuous f ∧ Function.Periodic f (2 * π) ∧ (∀ x, 0 < f x) ∧
      (∀ x, RegularAngle x → (invbatPdfMethod solve .empty x ⟨xi, kappa, nu, lmbd⟩).1 = some (f x)) ∧
      |(∫ x in (0 : ℝ)..(2 * π), f x) - 1| ≤ 1 / 10 ^ 11 ∧
      (∀ u, |f (xi + invbatAngle nu lmbd u) - invbatShape kappa lmbd u / invbatMass kappa lmbd|
        ≤ 1 / 10 ^ 11 * (invbatShape kappa lmbd u / invbatMass kappa lmbd)) ∧
      ∀ x, f x ≤ f (xi - 2 * nu) := by
  obtain ⟨⟨x0, x1⟩, ⟨k0, k1⟩, n0, n1, l0, l1, l2⟩ := h
  have hk : 0 ≤ kappa := le_trans (by positivity) k0.le
  obtain ⟨c, hc, hc0, hc1⟩ := invbatC_spec k0 k1 l0 l1 l2
  have hM := invbatMass_pos hk l0
  have hper := invbatG_periodic kappa n0 l0
  refine ⟨fun x => c * invbatG kappa nu lmbd (x - xi), ?_, ?_, ?_, ?_, ?_, ?_, ?_⟩
  · exact continuous_const.mul ((invbatG_continuous kappa n0 l0).comp (by fun_prop))
  · intro x
    simp only
    rw [show x + 2 * π - xi = x - xi + 2 * π by ring, hper]
  · exact fun x => mul_pos hc0 (invbatG_pos _ _ _ _)
  · intro x hx
    rw [invbatPdfMethod_eq hs .empty x0 x1 k0 k1 n0 n1 l0 l1 hc0 ((invbatCached_empty kappa lmbd).trans hc) x, regular_wrap hx]
  · rw [intervalIntegral.integral_const_mul, shift_integral hper, invbatG_integral kappa n0 l0]
    exact hc1
  · intro u
    have e : c * invbatG kappa nu lmbd (xi + invbatAngle nu lmbd u - xi) = c * invbatShape kappa lmbd u := by
      rw [add_sub_cancel_left]
      unfold invbatG
      rw [invbatU_angle n0 l0]
    have hS := invbatShape_pos kappa lmbd u
    simp only
    rw [e, show c * invbatShape kappa lmbd u - invbatShape kappa lmbd u / invbatMass kappa lmbd
      = (c * invbatMass kappa lmbd - 1) * (invbatShape kappa lmbd u / invbatMass kappa lmbd) by field_simp, abs_mul,
      abs_of_pos (div_pos hS hM)]
    exact mul_le_mul_of_nonneg_right hc1 (div_pos hS hM).le
  · intro x
    have := invbatG_max hk n0 l0 (x - xi)
    simp only
    rw [show xi - 2 * nu - xi = -2 * nu by ring]
    exact mul_le_mul_of_nonneg_left this hc0.le

/-- A bisection search is a root finder, so the hypothesis of C110 can be met. -/
theorem findsRoots_exists : ∃ solve : (ℝ → ℝ) → Option ℝ, FindsRoots solve := by
  classical
  refine ⟨fun f => if h : ∃ r, -π ≤ r ∧ r ≤ π ∧ f r = 0 then some h.choose else none, fun f hf h0 h1 => ?_⟩
  have hex : ∃ r, -π ≤ r ∧ r ≤ π ∧ f r = 0 := by
    obtain ⟨r, ⟨hr0, hr1⟩, hr⟩ := intermediate_value_Icc (by linarith [pi_pos] : -π ≤ π) hf.continuousOn ⟨h0, h1⟩
    exact ⟨r, hr0, hr1, hr⟩
  exact ⟨hex.choose, by simp only [dif_pos hex], hex.choose_spec⟩

/-- C110 for `xi = 1, kappa = 5, nu = 1/2, lmbd = -1/3`. -/
example : InvBatRegular 1 5 (1 / 2) (-1 / 3) := by
  refine ⟨⟨by norm_num, by linarith [pi_gt_three]⟩, ⟨by norm_num, by norm_num⟩, ?_, Or.inr ?_, ?_, Or.inr (by norm_num), Or.inr (by norm_num)⟩
  · rw [abs_of_pos] <;> norm_num
  · rw [abs_of_pos] <;> norm_num
  · rw [abs_of_neg] <;> norm_num

/-- **C110.** Changing the sign of `nu` reflects the density about `xi`. -/
theorem C110_reflection (solve : (ℝ → ℝ) → Option ℝ) (hs : FindsRoots solve) (xi kappa nu lmbd : ℝ)
    (h : InvBatRegular xi kappa nu lmbd) (x y : ℝ) (hx : RegularAngle x) (hy : RegularAngle y) (hxy : ∃ m : ℤ, x - xi = -(y - xi) + m * (2 * π)) :
    (invbatPdfMethod solve .empty x ⟨xi, kappa, nu, lmbd⟩).1 = (invbatPdfMethod solve .empty y ⟨xi, kappa, -nu, lmbd⟩).1 := by
  obtain ⟨⟨x0, x1⟩, ⟨k0, k1⟩, n0, n1, l0, l1, l2⟩ := h
  obtain ⟨c, hc, hc0, -⟩ := invbatC_spec k0 k1 l0 l1 l2
  have n0' : |-nu| ≤ 1 := by rwa [abs_neg]
  have n1' : -nu = 0 ∨ 1 / 10 ^ 12 < |-nu| := by rwa [abs_neg, neg_eq_zero]
  rw [invbatPdfMethod_eq hs .empty x0 x1 k0 k1 n0 n1 l0 l1 hc0 ((invbatCached_empty kappa lmbd).trans hc) x, regular_wrap hx,
    invbatPdfMethod_eq hs .empty x0 x1 k0 k1 n0' n1' l0 l1 hc0 ((invbatCached_empty kappa lmbd).trans hc) y, regular_wrap hy]
  obtain ⟨m, hm⟩ := hxy
  rw [hm, (invbatG_periodic kappa n0 l0).int_mul m]
  congr 2
  unfold invbatG
  have e : invbatU nu lmbd (-(y - xi)) = -invbatU (-nu) lmbd (y - xi) := by
    refine (invbatAngle_strictMono n0 l0).injective ?_
    rw [invbatAngle_U n0 l0]
    conv_lhs => rw [← invbatAngle_U n0' l0 (y - xi)]
    generalize invbatU (-nu) lmbd (y - xi) = u
    unfold invbatAngle
    rw [sin_neg, show -u - (1 + lmbd) / 2 * -sin u = -(u - (1 + lmbd) / 2 * sin u) by ring, cos_neg]
    ring
  rw [e, invbatShape_eq, invbatShape_eq, flatKernel_even]

/-- **C110.** With `nu = lmbd = 0` the density is exactly that of the von Mises distribution. -/
theorem C110_vonmises (solve : (ℝ → ℝ) → Option ℝ) (hs : FindsRoots solve) (xi kappa : ℝ) (hx0 : 0 ≤ xi) (hx1 : xi ≤ 2 * π)
    (hk0 : 1 / 10 ^ 9 < kappa) (hk1 : kappa ≤ 700) (x : ℝ) (hx : RegularAngle x) :
    (invbatPdfMethod solve .empty x ⟨xi, kappa, 0, 0⟩).1 = some (exp (kappa * cos (x - xi)) / (2 * π * besselI 0 kappa)) := by
  have hk : 0 ≤ kappa := le_trans (by positivity) hk0.le
  have hI := besselI_zero_pos kappa
  have hc : invbatC kappa 0 = some (1 / (2 * π * besselI 0 kappa)) := by
    have hn : invbatCNumeric kappa 0 4096 = some (1 / (2 * π * besselI 0 kappa)) := by
      unfold invbatCNumeric
      simp only
      have h0 : |(0 : ℝ)| ≤ 1 / 10 ^ 12 := by rw [abs_zero]; positivity
      have h1 : ¬ isclose 0 (-1) rtolDefault (1 / 10 ^ 12) := by unfold isclose rtolDefault; norm_num
      rw [if_neg h1, if_pos h0]
      simp only [le_refl, if_true, sub_self, exp_zero, sub_zero, add_zero]
      rw [if_neg (by norm_num), log_one, zero_add, add_zero, zero_sub, exp_neg, invbatLogMult_eq, one_div]
    unfold invbatC
    simp only
    rw [invbat_clip hk hk1, if_neg (by unfold invbatTol; linarith), if_neg (by unfold isclose rtolDefault; norm_num), hn]
    simp only
    rw [if_neg (not_le.2 (by positivity))]
  have z1 : |(0 : ℝ)| ≤ 1 := by simp
  rw [invbatPdfMethod_eq hs .empty hx0 hx1 hk0 hk1 z1 (Or.inl rfl) z1 (Or.inr (by norm_num)) (by positivity)
    ((invbatCached_empty kappa 0).trans hc) x, regular_wrap hx]
  congr 1
  have e : invbatG kappa 0 0 (x - xi) = exp (kappa * cos (x - xi)) := by
    unfold invbatG invbatShape
    have := invbatAngle_U z1 z1 (x - xi)
    unfold invbatAngle at this
    congr 3
    linarith
  rw [e]; ring

/-- **C110.** Below a concentration of `1e-9` the density is uniform, whatever happened before. -/
theorem C110_uniform (solve : (ℝ → ℝ) → Option ℝ) (st : InvBatState) (xi kappa nu lmbd : ℝ) (hx0 : 0 ≤ xi) (hx1 : xi ≤ 2 * π)
    (hk0 : 0 ≤ kappa) (hk1 : kappa ≤ 1 / 10 ^ 9) (hn : |nu| ≤ 1) (hl : |lmbd| ≤ 1) (x : ℝ) :
    (invbatPdfMethod solve st x ⟨xi, kappa, nu, lmbd⟩).1 = some (1 / (2 * π)) := by
  have h1 := abs_le.1 hn
  have h2 := abs_le.1 hl
  unfold invbatPdfMethod
  rw [if_neg (not_not.2 (show invbatArgcheck _ from ⟨hx0, hx1, hk0, h1.1, h1.2, h2.1, h2.2⟩)), if_pos (wrap2pi_mem x)]
  unfold invbatPdf
  simp only
  rw [invbat_clip hk0 (by norm_num at hk1; linarith)]
  rw [if_pos (show kappa ≤ invbatTol from hk1)]

/-! ## C107: arguments outside the range -/

/-- **C107.** The methods of the inverse Batschelet distribution treat concentrations outside `[0, 700]` differently:
for a negative concentration `pdf` gives `nan`, while `cdf` and `ppf` answer as for concentration 0; above 700 all three
answer as for 700. -/
theorem C107_invbat_arguments (solve : (ℝ → ℝ) → Option ℝ) (guess : ℝ → ℝ) (st : InvBatState) (xi nu lmbd kappa x q : ℝ) :
    (kappa < 0 → invbatPdfMethod solve st x ⟨xi, kappa, nu, lmbd⟩ = (none, st) ∧
      invbatCdfMethod solve st x ⟨xi, kappa, nu, lmbd⟩ = invbatCdfMethod solve st x ⟨xi, 0, nu, lmbd⟩ ∧
      invbatPpfMethod solve guess st q ⟨xi, kappa, nu, lmbd⟩ = invbatPpfMethod solve guess st q ⟨xi, 0, nu, lmbd⟩) ∧
    (700 < kappa → invbatPdfMethod solve st x ⟨xi, kappa, nu, lmbd⟩ = invbatPdfMethod solve st x ⟨xi, 700, nu, lmbd⟩ ∧
      invbatCdfMethod solve st x ⟨xi, kappa, nu, lmbd⟩ = invbatCdfMethod solve st x ⟨xi, 700, nu, lmbd⟩ ∧
      invbatPpfMethod solve guess st q ⟨xi, kappa, nu, lmbd⟩ = invbatPpfMethod solve guess st q ⟨xi, 700, nu, lmbd⟩) := by
  have e0 : clip 0 0 invbatUpper = 0 := invbat_clip le_rfl (by norm_num)
  have e7 : clip 700 0 invbatUpper = 700 := invbat_clip (by norm_num) le_rfl
  refine ⟨fun h => ?_, fun h => ?_⟩
  · have e : clip kappa 0 invbatUpper = 0 := by
      unfold clip invbatUpper; rw [max_eq_right h.le]; exact min_eq_left (by norm_num)
    refine ⟨?_, ?_, ?_⟩
    · unfold invbatPdfMethod
      rw [if_pos]
      rintro ⟨-, -, h2, -⟩
      exact absurd h2 (not_le.2 h)
    · unfold invbatCdfMethod; rw [e, e0]
    · unfold invbatPpfMethod; rw [e, e0]
  · have e : clip kappa 0 invbatUpper = 700 := by
      unfold clip invbatUpper; rw [max_eq_left (by linarith), min_eq_right h.le]
    refine ⟨?_, ?_, ?_⟩
    · unfold invbatPdfMethod
      have ea : invbatArgcheck ⟨xi, kappa, nu, lmbd⟩ ↔ invbatArgcheck ⟨xi, 700, nu, lmbd⟩ := by
        unfold invbatArgcheck
        constructor
        · rintro ⟨a, b, -, c⟩; exact ⟨a, b, by norm_num, c⟩
        · rintro ⟨a, b, -, c⟩; exact ⟨a, b, by linarith, c⟩
      by_cases ha : invbatArgcheck ⟨xi, 700, nu, lmbd⟩
      · rw [if_neg (not_not.2 (ea.2 ha)), if_neg (not_not.2 ha), if_pos (wrap2pi_mem x), if_pos (wrap2pi_mem x)]
        unfold invbatPdf; simp only [e, e7]
      · rw [if_pos (fun hh => ha (ea.1 hh)), if_pos ha]
    · unfold invbatCdfMethod; rw [e, e7]
    · unfold invbatPpfMethod; rw [e, e7]

/-- The first part of C107 is not about `nan` on both sides: `cdf(1, 1, -2, 0, 0)` is `1/(2π)`. -/
example (solve : (ℝ → ℝ) → Option ℝ) : ∃ v, (invbatCdfMethod solve .empty 1 ⟨1, -2, 0, 0⟩).1 = some v ∧ 0 < v := by
  have hp := pi_gt_three
  have hr : RegularAngle 1 := ⟨by norm_num, Or.inl (by norm_num; linarith)⟩
  rw [((C107_invbat_arguments solve id .empty 1 0 0 (-2) 1 0).1 (by norm_num)).2.1]
  refine ⟨1 / (2 * π), ?_, by positivity⟩
  unfold invbatCdfMethod
  simp only [invbat_clip le_rfl (show (0 : ℝ) ≤ 700 by norm_num)]
  unfold invbatCdfScipy
  rw [if_neg (not_not.2 (show invbatArgcheck ⟨1, 0, 0, 0⟩ from ⟨by norm_num, by linarith, le_rfl, by norm_num, by norm_num, by norm_num, by norm_num⟩)),
    regular_wrap hr, if_neg (by linarith), if_pos (by norm_num)]
  unfold invbatCdf
  simp only [invbat_clip le_rfl (show (0 : ℝ) ≤ 700 by norm_num)]
  rw [if_pos (by unfold invbatTol; positivity), regular_wrap hr, if_neg (by
    unfold isclose
    rw [zero_mul, add_zero, not_le, abs_sub_comm, abs_of_pos (by linarith)]
    norm_num; linarith)]

end Verif
