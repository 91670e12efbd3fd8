import Verif.Model.DistInvBat
import Verif.Spec.Families
import Verif.Lemmas.DistFlat
import Verif.Lemmas.Bessel
import Mathlib.MeasureTheory.Integral.IntervalIntegral.IntegrationByParts
import Mathlib.Topology.Order.MonotoneContinuity

/-! # The inverse Batschelet family: the warp, its inverse and the mass -/

set_option autoImplicit false

namespace Verif

open Real MeasureTheory Spec

/-! ## The warp -/

private lemma sin_diff_lt {a b : ℝ} (h : a < b) : |sin a - sin b| < b - a := by
  rw [sin_sub_sin, abs_mul, abs_mul, abs_two]
  have h1 : |sin ((a - b) / 2)| < (b - a) / 2 := by
    rw [show (a - b) / 2 = -((b - a) / 2) by ring, sin_neg, abs_neg]
    have h0 : 0 < (b - a) / 2 := by linarith
    rw [abs_lt]
    have h3 := sin_lt (x := (b - a) / 2) h0
    refine ⟨?_, h3⟩
    rcases le_or_gt ((b - a) / 2) π with h | h
    · linarith [sin_nonneg_of_nonneg_of_le_pi h0.le h]
    · linarith [neg_one_le_sin ((b - a) / 2), pi_gt_three]
  have h2 := abs_cos_le_one ((a + b) / 2)
  nlinarith [abs_nonneg (sin ((a - b) / 2)), abs_nonneg (cos ((a + b) / 2))]

private lemma cos_diff_lt {a b : ℝ} (h : a < b) : |cos a - cos b| < b - a := by
  have := sin_diff_lt (a := a + π / 2) (b := b + π / 2) (by linarith)
  rw [sin_add_pi_div_two, sin_add_pi_div_two] at this
  linarith

theorem invbat_nu_strictMono {nu : ℝ} (hn : |nu| ≤ 1) : StrictMono fun y => y - nu * (1 + cos y) := by
  intro a b hab
  have h := cos_diff_lt hab
  have h2 : |nu * (cos b - cos a)| ≤ |cos a - cos b| := by
    rw [abs_mul, abs_sub_comm]; exact mul_le_of_le_one_left (abs_nonneg _) hn
  have := (abs_le.1 h2).2
  show a - nu * (1 + cos a) < b - nu * (1 + cos b)
  linarith

theorem invbat_sin_strictMono {c : ℝ} (h0 : 0 ≤ c) (h1 : c ≤ 1) : StrictMono fun u => u - c * sin u := by
  intro a b hab
  have h := sin_diff_lt hab
  have h2 : |c * (sin b - sin a)| ≤ |sin a - sin b| := by
    rw [abs_mul, abs_sub_comm, abs_of_nonneg h0]; exact mul_le_of_le_one_left (abs_nonneg _) h1
  have := (abs_le.1 h2).2
  show a - c * sin a < b - c * sin b
  linarith

theorem invbatAngle_strictMono {nu lmbd : ℝ} (hn : |nu| ≤ 1) (hl : |lmbd| ≤ 1) : StrictMono (invbatAngle nu lmbd) := by
  have h := abs_le.1 hl
  exact (invbat_nu_strictMono hn).comp (invbat_sin_strictMono (by linarith : 0 ≤ (1 + lmbd) / 2) (by linarith))

theorem invbatAngle_continuous (nu lmbd : ℝ) : Continuous (invbatAngle nu lmbd) := by
  unfold invbatAngle; fun_prop

theorem invbatAngle_add (nu lmbd u : ℝ) : invbatAngle nu lmbd (u + 2 * π) = invbatAngle nu lmbd u + 2 * π := by
  unfold invbatAngle
  rw [sin_add_two_pi, show u + 2 * π - (1 + lmbd) / 2 * sin u = (u - (1 + lmbd) / 2 * sin u) + 2 * π by ring, cos_add_two_pi]
  ring

theorem invbatAngle_pi (nu lmbd : ℝ) : invbatAngle nu lmbd π = π := by
  unfold invbatAngle; simp

theorem invbatAngle_neg_pi (nu lmbd : ℝ) : invbatAngle nu lmbd (-π) = -π := by
  unfold invbatAngle; simp

theorem invbatAngle_near (nu lmbd u : ℝ) (hn : |nu| ≤ 1) (hl : |lmbd| ≤ 1) : |invbatAngle nu lmbd u - u| ≤ 3 := by
  unfold invbatAngle
  have h := abs_le.1 hl
  obtain ⟨s, hs⟩ : ∃ s, s = u - (1 + lmbd) / 2 * sin u := ⟨_, rfl⟩
  rw [← hs]
  have h1 : |(1 + lmbd) / 2 * sin u| ≤ 1 := by
    rw [abs_mul, abs_of_nonneg (by linarith : 0 ≤ (1 + lmbd) / 2)]
    have := abs_sin_le_one u
    nlinarith [abs_nonneg (sin u)]
  have h2 : |nu * (1 + cos s)| ≤ 2 := by
    rw [abs_mul]
    have : |1 + cos s| ≤ 2 := by rw [abs_le]; constructor <;> linarith [neg_one_le_cos s, cos_le_one s]
    nlinarith [abs_nonneg nu, abs_nonneg (1 + cos s)]
  have e : s - nu * (1 + cos s) - u = -((1 + lmbd) / 2 * sin u) - nu * (1 + cos s) := by rw [hs]; ring
  rw [e]
  have := abs_le.1 h1
  have := abs_le.1 h2
  rw [abs_le]; constructor <;> linarith

theorem invbatAngle_surjective {nu lmbd : ℝ} (hn : |nu| ≤ 1) (hl : |lmbd| ≤ 1) : Function.Surjective (invbatAngle nu lmbd) := by
  refine (invbatAngle_continuous nu lmbd).surjective ?_ ?_
  · refine Filter.tendsto_atTop_mono (f := fun u => u - 3) (fun u => ?_) (Filter.tendsto_atTop_add_const_right _ _ Filter.tendsto_id)
    have := (abs_le.1 (invbatAngle_near nu lmbd u hn hl)).1
    linarith
  · refine Filter.tendsto_atBot_mono (f := fun u : ℝ => u + 3) (fun u => ?_) (Filter.tendsto_atBot_add_const_right _ _ Filter.tendsto_id)
    have := (abs_le.1 (invbatAngle_near nu lmbd u hn hl)).2
    linarith

/-- The inverse of the warp. -/
noncomputable def invbatU (nu lmbd : ℝ) : ℝ → ℝ := Function.invFun (invbatAngle nu lmbd)

theorem invbatAngle_U {nu lmbd : ℝ} (hn : |nu| ≤ 1) (hl : |lmbd| ≤ 1) (phi : ℝ) : invbatAngle nu lmbd (invbatU nu lmbd phi) = phi :=
  Function.invFun_eq (invbatAngle_surjective hn hl phi)

theorem invbatU_angle {nu lmbd : ℝ} (hn : |nu| ≤ 1) (hl : |lmbd| ≤ 1) (u : ℝ) : invbatU nu lmbd (invbatAngle nu lmbd u) = u :=
  Function.leftInverse_invFun (invbatAngle_strictMono hn hl).injective u

theorem invbatU_strictMono {nu lmbd : ℝ} (hn : |nu| ≤ 1) (hl : |lmbd| ≤ 1) : StrictMono (invbatU nu lmbd) := by
  intro a b hab
  by_contra hc
  push Not at hc
  have := (invbatAngle_strictMono hn hl).monotone hc
  rw [invbatAngle_U hn hl, invbatAngle_U hn hl] at this
  linarith

theorem invbatU_continuous {nu lmbd : ℝ} (hn : |nu| ≤ 1) (hl : |lmbd| ≤ 1) : Continuous (invbatU nu lmbd) :=
  (invbatU_strictMono hn hl).monotone.continuous_of_surjective fun u => ⟨invbatAngle nu lmbd u, invbatU_angle hn hl u⟩

theorem invbatU_add {nu lmbd : ℝ} (hn : |nu| ≤ 1) (hl : |lmbd| ≤ 1) (phi : ℝ) :
    invbatU nu lmbd (phi + 2 * π) = invbatU nu lmbd phi + 2 * π := by
  refine (invbatAngle_strictMono hn hl).injective ?_
  rw [invbatAngle_U hn hl, invbatAngle_add, invbatAngle_U hn hl]

theorem invbatU_pi {nu lmbd : ℝ} (hn : |nu| ≤ 1) (hl : |lmbd| ≤ 1) : invbatU nu lmbd π = π := by
  conv_lhs => rw [← invbatAngle_pi nu lmbd]
  exact invbatU_angle hn hl π

theorem invbatU_neg_pi {nu lmbd : ℝ} (hn : |nu| ≤ 1) (hl : |lmbd| ≤ 1) : invbatU nu lmbd (-π) = -π := by
  conv_lhs => rw [← invbatAngle_neg_pi nu lmbd]
  exact invbatU_angle hn hl (-π)

/-! ## The kernel as a function of the angle -/

theorem invbatShape_eq (kappa lmbd u : ℝ) : invbatShape kappa lmbd u = flatKernel kappa (-(1 - lmbd) / 2) u := by
  unfold invbatShape flatKernel
  congr 3; ring

theorem invbatShape_pos (kappa lmbd u : ℝ) : 0 < invbatShape kappa lmbd u := exp_pos _

theorem invbatShape_continuous (kappa lmbd : ℝ) : Continuous (invbatShape kappa lmbd) := by
  unfold invbatShape; fun_prop

/-- The kernel at an angle. -/
noncomputable def invbatG (kappa nu lmbd phi : ℝ) : ℝ := invbatShape kappa lmbd (invbatU nu lmbd phi)

theorem invbatG_pos (kappa nu lmbd phi : ℝ) : 0 < invbatG kappa nu lmbd phi := invbatShape_pos _ _ _

theorem invbatG_continuous (kappa : ℝ) {nu lmbd : ℝ} (hn : |nu| ≤ 1) (hl : |lmbd| ≤ 1) : Continuous (invbatG kappa nu lmbd) :=
  (invbatShape_continuous kappa lmbd).comp (invbatU_continuous hn hl)

theorem invbatG_periodic (kappa : ℝ) {nu lmbd : ℝ} (hn : |nu| ≤ 1) (hl : |lmbd| ≤ 1) :
    Function.Periodic (invbatG kappa nu lmbd) (2 * π) := fun phi => by
  unfold invbatG
  rw [invbatU_add hn hl, invbatShape_eq, invbatShape_eq, flatKernel_periodic]

theorem invbatG_le {kappa : ℝ} (hk : 0 ≤ kappa) (nu lmbd phi : ℝ) : invbatG kappa nu lmbd phi ≤ exp kappa := by
  unfold invbatG; rw [invbatShape_eq]; exact flatKernel_le hk _ _

theorem invbatG_ge {kappa : ℝ} (hk : 0 ≤ kappa) (nu lmbd phi : ℝ) : exp (-kappa) ≤ invbatG kappa nu lmbd phi := by
  unfold invbatG; rw [invbatShape_eq]; exact flatKernel_ge hk _ _

/-! ## The mass -/

private lemma odd_integral {g : ℝ → ℝ} (h : ∀ u, g (-u) = -g u) (a : ℝ) : ∫ u in (-a)..a, g u = 0 := by
  have e := intervalIntegral.integral_comp_neg (a := -a) (b := a) g
  rw [neg_neg] at e
  have e2 : ∫ u in (-a)..a, g (-u) = -∫ u in (-a)..a, g u := by
    rw [← intervalIntegral.integral_neg]
    exact intervalIntegral.integral_congr fun u _ => h u
  linarith

theorem invbatAngle_deriv (nu lmbd u : ℝ) : HasDerivAt (invbatAngle nu lmbd)
    ((1 - (1 + lmbd) / 2 * cos u) * (1 + nu * sin (u - (1 + lmbd) / 2 * sin u))) u := by
  have h1 : HasDerivAt (fun u => u - (1 + lmbd) / 2 * sin u) (1 - (1 + lmbd) / 2 * cos u) u :=
    (hasDerivAt_id u).sub ((hasDerivAt_sin u).const_mul _)
  have h2 := h1.sub ((h1.cos.const_add 1).const_mul nu)
  refine h2.congr_deriv ?_
  ring

theorem invbatG_integral (kappa : ℝ) {nu lmbd : ℝ} (hn : |nu| ≤ 1) (hl : |lmbd| ≤ 1) :
    ∫ phi in (-π)..π, invbatG kappa nu lmbd phi = invbatMass kappa lmbd := by
  have hs := intervalIntegral.integral_comp_mul_deriv (a := -π) (b := π) (f := invbatAngle nu lmbd)
    (f' := fun u => (1 - (1 + lmbd) / 2 * cos u) * (1 + nu * sin (u - (1 + lmbd) / 2 * sin u)))
    (g := invbatG kappa nu lmbd) (fun u _ => invbatAngle_deriv nu lmbd u) (by fun_prop) (invbatG_continuous kappa hn hl)
  rw [invbatAngle_pi, invbatAngle_neg_pi] at hs
  rw [← hs]
  have e : ∀ u, (invbatG kappa nu lmbd ∘ invbatAngle nu lmbd) u * ((1 - (1 + lmbd) / 2 * cos u) * (1 + nu * sin (u - (1 + lmbd) / 2 * sin u)))
      = invbatShape kappa lmbd u * (1 - (1 + lmbd) / 2 * cos u)
        + invbatShape kappa lmbd u * (1 - (1 + lmbd) / 2 * cos u) * (nu * sin (u - (1 + lmbd) / 2 * sin u)) := by
    intro u
    simp only [Function.comp, invbatG, invbatU_angle hn hl]
    ring
  simp only [e]
  have hc := invbatShape_continuous kappa lmbd
  rw [intervalIntegral.integral_add (Continuous.intervalIntegrable (by fun_prop) _ _) (Continuous.intervalIntegrable (by fun_prop) _ _),
    odd_integral (g := fun u => invbatShape kappa lmbd u * (1 - (1 + lmbd) / 2 * cos u) * (nu * sin (u - (1 + lmbd) / 2 * sin u))), add_zero]
  · rfl
  · intro u
    rw [invbatShape_eq, invbatShape_eq, flatKernel_even, cos_neg, sin_neg,
      show -u - (1 + lmbd) / 2 * -sin u = -(u - (1 + lmbd) / 2 * sin u) by ring, sin_neg]
    ring

theorem flatZ_zero (k : ℝ) : flatZ k 0 = 2 * π * besselI 0 k := by
  rw [flatZ_symm]
  have hi : ∀ a b, IntervalIntegrable (flatKernel k 0) volume a b := fun a b => (flatKernel_continuous k 0).intervalIntegrable a b
  rw [← intervalIntegral.integral_add_adjacent_intervals (hi (-π) 0) (hi 0 π)]
  have e3 : ∫ t in (-π)..0, flatKernel k 0 t = ∫ t in (0 : ℝ)..π, flatKernel k 0 t := by
    have := intervalIntegral.integral_comp_neg (a := -π) (b := 0) (flatKernel k 0)
    rw [neg_zero, neg_neg] at this
    rw [← this]
    exact intervalIntegral.integral_congr fun t _ => (flatKernel_even k 0 t).symm
  rw [e3]
  unfold besselI flatKernel
  have hpi := pi_pos.ne'
  simp only [Nat.cast_zero, zero_mul, cos_zero, mul_one, add_zero]
  field_simp
  ring

/-- The closed form used by the library. -/
theorem invbatMass_eq (kappa lmbd : ℝ) :
    (1 - lmbd) * invbatMass kappa lmbd = (1 + lmbd) * (2 * π * besselI 0 kappa) - 2 * lmbd * flatZ kappa (-(1 - lmbd) / 2) := by
  have hc := invbatShape_continuous kappa lmbd
  -- substitution `w = u - (1 - lmbd)/2 sin u`
  have hw : ∀ u, HasDerivAt (fun u => u - (1 - lmbd) / 2 * sin u) (1 - (1 - lmbd) / 2 * cos u) u := fun u =>
    (hasDerivAt_id u).sub ((hasDerivAt_sin u).const_mul _)
  have hs := intervalIntegral.integral_comp_mul_deriv (a := -π) (b := π) (f := fun u => u - (1 - lmbd) / 2 * sin u)
    (f' := fun u => 1 - (1 - lmbd) / 2 * cos u) (g := flatKernel kappa 0) (fun u _ => hw u) (by fun_prop) (flatKernel_continuous kappa 0)
  have hz := flatZ_symm kappa 0
  rw [flatZ_zero] at hz
  simp only [sin_pi, sin_neg, mul_zero, neg_zero, sub_zero] at hs
  rw [← hz] at hs
  have e : ∀ u, (flatKernel kappa 0 ∘ fun u => u - (1 - lmbd) / 2 * sin u) u * (1 - (1 - lmbd) / 2 * cos u)
      = invbatShape kappa lmbd u * (1 - (1 - lmbd) / 2 * cos u) := by
    intro u
    simp only [Function.comp, flatKernel, invbatShape, zero_mul, add_zero]
  simp only [e] at hs
  have hz2 := flatZ_symm kappa (-(1 - lmbd) / 2)
  simp only [← invbatShape_eq] at hz2
  unfold invbatMass
  obtain ⟨A, hA⟩ : ∃ A, A = ∫ u in (-π)..π, invbatShape kappa lmbd u * cos u := ⟨_, rfl⟩
  have split : ∀ c : ℝ, ∫ u in (-π)..π, invbatShape kappa lmbd u * (1 - c * cos u) = flatZ kappa (-(1 - lmbd) / 2) - c * A := by
    intro c
    rw [hz2, hA, ← intervalIntegral.integral_const_mul, ← intervalIntegral.integral_sub (Continuous.intervalIntegrable (by fun_prop) _ _)
      (Continuous.intervalIntegrable (by fun_prop) _ _)]
    exact intervalIntegral.integral_congr fun u _ => by ring
  rw [split] at hs ⊢
  rw [← hs]
  ring

end Verif
