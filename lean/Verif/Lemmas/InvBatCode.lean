import Verif.Lemmas.InvBat
import Verif.Lemmas.TableError
import Verif.Lemmas.Distn

/-! # The inverse Batschelet family: the code computes the kernel and its normaliser -/

set_option autoImplicit false

namespace Verif

open Real MeasureTheory Spec

/-! ## The kernel -/

private lemma wrap_back {r : ℝ} (h0 : -π ≤ r) (h1 : r < π) : pymod (r + π) (2 * π) - π = r := by
  rw [pymod_eq_self two_pi_pos (by linarith) (by linarith)]; ring

/-- The inverse warp in `nu` solves its equation. -/
theorem invbatTnu_spec {solve : (ℝ → ℝ) → Option ℝ} (hs : FindsRoots solve) {nu : ℝ} (hn : |nu| ≤ 1)
    (hn0 : nu = 0 ∨ 1 / 10 ^ 12 < |nu|) (x xi : ℝ) :
    -π ≤ invbatTnu solve x nu xi ∧ invbatTnu solve x nu xi < π ∧
      invbatTnu solve x nu xi - nu * (1 + cos (invbatTnu solve x nu xi)) = tabRel x xi := by
  obtain ⟨h0, h1⟩ := tabRel_mem x xi
  unfold invbatTnu
  simp only
  rcases hn0 with rfl | hn0
  · rw [if_pos (by rw [abs_zero]; positivity)]
    exact ⟨h0, h1, by ring⟩
  · rw [if_neg (not_le.2 hn0)]
    obtain ⟨r, hr, hr0, hr1, hr2⟩ := hs (fun y => y - nu * (1 + cos y) - tabRel x xi) (by fun_prop)
      (by simp only [cos_neg, cos_pi]; linarith) (by simp only [cos_pi]; linarith)
    have hlt : r < π := by
      refine lt_of_le_of_ne hr1 fun e => ?_
      rw [e, cos_pi] at hr2
      linarith
    rw [hr, Option.getD_some, wrap_back hr0 hlt]
    exact ⟨hr0, hlt, by linarith⟩

/-- The inverse warp in `lmbd` solves its equation. -/
theorem invbatSinv_spec {solve : (ℝ → ℝ) → Option ℝ} (hs : FindsRoots solve) {lmbd : ℝ}
    (hl : lmbd = -1 ∨ -1 + 11 / 10 ^ 6 < lmbd) {x : ℝ} (h0 : -π ≤ x) (h1 : x < π) :
    -π ≤ invbatSinv solve x lmbd ∧ invbatSinv solve x lmbd < π ∧
      invbatSinv solve x lmbd - (1 + lmbd) / 2 * sin (invbatSinv solve x lmbd) = x := by
  unfold invbatSinv
  rcases hl with rfl | hl
  · rw [if_pos (by unfold isclose rtolDefault; norm_num)]
    exact ⟨h0, h1, by ring⟩
  · rw [if_neg (by
      unfold isclose rtolDefault
      rw [abs_of_pos (by linarith), abs_neg, abs_one]
      norm_num; linarith)]
    obtain ⟨r, hr, hr0, hr1, hr2⟩ := hs (fun u => u - 1 / 2 * (1 + lmbd) * sin u - x) (by fun_prop)
      (by simp only [sin_neg, sin_pi]; linarith) (by simp only [sin_pi]; linarith)
    have hlt : r < π := by
      refine lt_of_le_of_ne hr1 fun e => ?_
      rw [e, sin_pi] at hr2
      linarith
    rw [hr, Option.getD_some, wrap_back hr0 hlt]
    exact ⟨hr0, hlt, by linarith⟩

/-- The logarithm of the kernel, for both tolerances the code uses. -/
theorem invbatLogKernel_eq {solve : (ℝ → ℝ) → Option ℝ} (hs : FindsRoots solve) {atol : ℝ} (ha0 : 0 ≤ atol) (ha : atol ≤ 1 / 10 ^ 8)
    (kappa : ℝ) {nu lmbd : ℝ} (hn : |nu| ≤ 1) (hn0 : nu = 0 ∨ 1 / 10 ^ 12 < |nu|) (hl : |lmbd| ≤ 1)
    (hl0 : lmbd = -1 ∨ -1 + 11 / 10 ^ 6 < lmbd) (x xi : ℝ) :
    exp (invbatLogKernel solve atol kappa nu lmbd x xi) = invbatG kappa nu lmbd (x - xi) := by
  rw [← periodic_tabRel (invbatG_periodic kappa hn hl)]
  obtain ⟨y0, y1, y2⟩ := invbatTnu_spec hs hn hn0 x xi
  obtain ⟨u0, u1, u2⟩ := invbatSinv_spec hs hl0 y0 y1
  have hU : invbatU nu lmbd (tabRel x xi) = invbatSinv solve (invbatTnu solve x nu xi) lmbd := by
    refine (invbatAngle_strictMono hn hl).injective ?_
    rw [invbatAngle_U hn hl]
    unfold invbatAngle
    rw [u2, y2]
  unfold invbatG invbatShape invbatLogKernel
  simp only
  rw [hU]
  congr 1
  obtain ⟨y, hy⟩ : ∃ y, y = invbatTnu solve x nu xi := ⟨_, rfl⟩
  obtain ⟨u, hu⟩ : ∃ u, u = invbatSinv solve y lmbd := ⟨_, rfl⟩
  rw [← hy] at u2 ⊢
  rw [← hu] at u2 ⊢
  rcases hl0 with rfl | hl0
  · rw [if_pos (by unfold isclose rtolDefault; norm_num; linarith)]
    have : u = y := by linarith
    rw [this]; norm_num
  · rw [if_neg (by
      unfold isclose rtolDefault
      rw [abs_of_pos (by linarith), abs_neg, abs_one]
      norm_num at ha ⊢; linarith)]
    congr 2
    have hne : (1 + lmbd) ≠ 0 := by linarith
    rw [← u2]
    field_simp
    ring

/-! ## The normaliser -/

theorem invbatLogInt_eq {N : ℕ} (hN : 0 < N) (kappa lmbd : ℝ) : exp (invbatLogInt kappa lmbd N) = flatZN kappa (-(1 - lmbd) / 2) N := by
  have e : invbatLogInt kappa lmbd N = -vmftLogNorm kappa (-(1 - lmbd) / 2) N := by
    unfold invbatLogInt vmftLogNorm vmftLogKernel
    have e2 : ∀ j, kappa * cos (tabGrid N j - 1 / 2 * (1 - lmbd) * sin (tabGrid N j))
        = kappa * cos (tabGrid N j + -(1 - lmbd) / 2 * sin (tabGrid N j)) := fun j => by congr 2; ring
    simp only [e2, neg_neg]
  rw [e, exp_neg, vmftNorm_eq hN, one_div, inv_inv]

theorem invbatLogMult_eq (kappa : ℝ) : exp (invbatLogMult kappa) = 2 * π * besselI 0 kappa := by
  have hI := besselI_zero_pos kappa
  unfold invbatLogMult
  rw [log_mul (exp_pos _).ne' hI.ne', log_exp, exp_add, exp_add, exp_add, exp_log two_pi_pos, exp_log hI, exp_neg]
  have := (exp_pos kappa).ne'
  field_simp

/-- The mass is at least half `1 - lmbd` times the trapezoid-summed integral. -/
theorem invbatMass_ge (kappa : ℝ) {lmbd : ℝ} (hl : |lmbd| ≤ 1) :
    (1 - lmbd) / 2 * flatZ kappa (-(1 - lmbd) / 2) ≤ invbatMass kappa lmbd := by
  have h := abs_le.1 hl
  rw [flatZ_symm, ← intervalIntegral.integral_const_mul]
  unfold invbatMass
  have hc := invbatShape_continuous kappa lmbd
  have hk := flatKernel_continuous kappa (-(1 - lmbd) / 2)
  refine intervalIntegral.integral_mono_on (by linarith [pi_pos]) (Continuous.intervalIntegrable (by fun_prop) _ _)
    (Continuous.intervalIntegrable (by fun_prop) _ _) fun u _ => ?_
  rw [← invbatShape_eq, mul_comm]
  refine mul_le_mul_of_nonneg_left ?_ (invbatShape_pos _ _ _).le
  nlinarith [cos_le_one u]

theorem invbatMass_one (kappa : ℝ) : invbatMass kappa 1 = 2 * π * (besselI 0 kappa - besselI 1 kappa) := by
  have e0 := flatZ_symm kappa 0
  rw [flatZ_zero] at e0
  have hk := flatKernel_continuous kappa 0
  have e1 : invbatMass kappa 1 = ∫ u in (-π)..π, (flatKernel kappa 0 u - flatKernel kappa 0 u * cos u) := by
    unfold invbatMass
    refine intervalIntegral.integral_congr fun u _ => ?_
    rw [invbatShape_eq]
    norm_num
    ring
  rw [e1, intervalIntegral.integral_sub (hk.intervalIntegrable _ _) (Continuous.intervalIntegrable (by fun_prop) _ _), ← e0]
  have hi : ∀ a b, IntervalIntegrable (fun u => flatKernel kappa 0 u * cos u) volume a b := fun a b =>
    Continuous.intervalIntegrable (by fun_prop) _ _
  have e3 : ∫ t in (-π)..0, flatKernel kappa 0 t * cos t = ∫ t in (0 : ℝ)..π, flatKernel kappa 0 t * cos t := by
    have := intervalIntegral.integral_comp_neg (a := -π) (b := 0) fun t => flatKernel kappa 0 t * cos t
    rw [neg_zero, neg_neg] at this
    rw [← this]
    exact intervalIntegral.integral_congr fun t _ => by simp only [flatKernel_even, cos_neg]
  rw [← intervalIntegral.integral_add_adjacent_intervals (hi (-π) 0) (hi 0 π), e3]
  have e4 : ∫ t in (0 : ℝ)..π, flatKernel kappa 0 t * cos t = π * besselI 1 kappa := by
    rw [← besselI_pi 1 kappa]
    refine intervalIntegral.integral_congr fun t _ => ?_
    simp only [flatKernel, Nat.cast_one, one_mul, zero_mul, add_zero]
  rw [e4]; ring

theorem invbatMass_pos {kappa : ℝ} (hk : 0 ≤ kappa) {lmbd : ℝ} (hl : |lmbd| ≤ 1) : 0 < invbatMass kappa lmbd := by
  have h := abs_le.1 hl
  rcases eq_or_lt_of_le h.2 with rfl | h1
  · rw [invbatMass_one]
    have := besselI_one_lt kappa
    have : 0 < besselI 0 kappa - besselI 1 kappa := by linarith
    positivity
  · exact lt_of_lt_of_le (mul_pos (by linarith) (flatZ_pos hk _)) (invbatMass_ge kappa hl)

/-- What the numeric normaliser returns away from `lmbd = 1`. -/
theorem invbatCNumeric_eq {kappa : ℝ} (hk0 : 0 ≤ kappa) (hk1 : kappa ≤ 700) {lmbd : ℝ} (hl : |lmbd| ≤ 1)
    (hl0 : lmbd = -1 ∨ -1 + 11 / 10 ^ 6 < lmbd) (hl1 : lmbd < 1 - 10 / 10 ^ 6) {N : ℕ} (hN : 4096 ≤ N) :
    ∃ c, invbatCNumeric kappa lmbd N = some c ∧ 0 < c ∧ |c * invbatMass kappa lmbd - 1| ≤ 1 / 10 ^ 11 := by
  have h := abs_le.1 hl
  have hN0 : 0 < N := by omega
  obtain ⟨Z, hZ⟩ : ∃ Z, Z = flatZ kappa (-(1 - lmbd) / 2) := ⟨_, rfl⟩
  obtain ⟨ZN, hZN⟩ : ∃ ZN, ZN = flatZN kappa (-(1 - lmbd) / 2) N := ⟨_, rfl⟩
  obtain ⟨M, hM⟩ : ∃ M, M = invbatMass kappa lmbd := ⟨_, rfl⟩
  obtain ⟨B, hB⟩ : ∃ B, B = 2 * π * besselI 0 kappa := ⟨_, rfl⟩
  have hZ0 : 0 < Z := by rw [hZ]; exact flatZ_pos hk0 _
  have hZN0 : 0 < ZN := by rw [hZN]; exact flatZN_pos hN0 _ _
  have hB0 : 0 < B := by rw [hB]; have := besselI_zero_pos kappa; positivity
  have hM0 : 0 < M := by rw [hM]; exact invbatMass_pos hk0 hl
  have hacc : |ZN - Z| ≤ 1 / 10 ^ 90 * Z := by
    rw [hZN, hZ]
    refine flatZN_accuracy_fine hk0 (by linarith) ?_ hN
    rw [abs_le]; constructor <;> linarith
  have hge : (1 - lmbd) / 2 * Z ≤ M := by rw [hZ, hM]; exact invbatMass_ge kappa hl
  have heq : (1 - lmbd) * M = (1 + lmbd) * B - 2 * lmbd * Z := by rw [hM, hB, hZ]; exact invbatMass_eq kappa lmbd
  have hlogint := invbatLogInt_eq hN0 kappa lmbd
  rw [← hZN] at hlogint
  have hmult := invbatLogMult_eq kappa
  rw [← hB] at hmult
  have hac := abs_le.1 hacc
  rw [← hM]
  unfold invbatCNumeric
  simp only
  rcases hl0 with rfl | hl0
  · rw [if_pos (by unfold isclose rtolDefault; norm_num)]
    refine ⟨_, rfl, exp_pos _, ?_⟩
    rw [exp_neg, hlogint]
    have hMZ : M = Z := by linarith
    rw [hMZ, abs_le]
    have e : ZN⁻¹ * Z - 1 = (Z - ZN) / ZN := by field_simp
    rw [e]
    have h2 : Z / 2 ≤ ZN := by norm_num at hac; linarith [hac.1]
    constructor
    · rw [le_div_iff₀ hZN0]; norm_num at hac ⊢; linarith [hac.2]
    · rw [div_le_iff₀ hZN0]; norm_num at hac ⊢; linarith [hac.1]
  · rw [if_neg (by
      unfold isclose rtolDefault
      rw [abs_of_pos (by linarith), abs_neg, abs_one]
      norm_num; linarith)]
    have hlp : 0 < 1 + lmbd := by linarith
    have hlm : 0 < 1 - lmbd := by linarith
    have ht1 : exp (log (1 + lmbd) + invbatLogMult kappa) = (1 + lmbd) * B := by rw [exp_add, exp_log hlp, hmult]
    by_cases h0 : |lmbd| ≤ 1 / 10 ^ 12
    · rw [if_pos h0]
      have hl2 := abs_le.1 h0
      norm_num at hl2
      simp only [sub_self, exp_zero, sub_zero, add_zero, ite_self]
      rw [if_neg (by norm_num), log_one, add_zero]
      refine ⟨_, rfl, exp_pos _, ?_⟩
      rw [exp_sub, exp_log hlm, ht1]
      have hBz : 2 / 5 * Z ≤ (1 + lmbd) * B := by nlinarith
      have e : (1 - lmbd) / ((1 + lmbd) * B) * M - 1 = -(2 * lmbd * Z) / ((1 + lmbd) * B) := by
        have : (1 + lmbd) * B ≠ 0 := by positivity
        field_simp
        linarith
      have hb : |2 * lmbd * Z| ≤ 2 / 10 ^ 12 * Z := by
        rw [abs_mul, abs_mul, abs_two, abs_of_pos hZ0]; nlinarith
      rw [e, abs_div, abs_neg, abs_of_pos (by positivity : 0 < (1 + lmbd) * B), div_le_iff₀ (by positivity)]
      norm_num at hb ⊢
      linarith
    · rw [if_neg h0]
      have hl0' : lmbd ≠ 0 := fun e => h0 (by rw [e, abs_zero]; positivity)
      have ht2 : exp (log (2 * |lmbd|) + invbatLogInt kappa lmbd N) = 2 * |lmbd| * ZN := by
        rw [exp_add, exp_log (by have := abs_pos.2 hl0'; positivity), hlogint]
      obtain ⟨t1, e1⟩ : ∃ t, t = log (1 + lmbd) + invbatLogMult kappa := ⟨_, rfl⟩
      obtain ⟨t2, e2⟩ : ∃ t, t = log (2 * |lmbd|) + invbatLogInt kappa lmbd N := ⟨_, rfl⟩
      rw [← e1] at ht1 ⊢
      rw [← e2] at ht2 ⊢
      simp only
      obtain ⟨m, hm⟩ : ∃ m, m = max t1 t2 := ⟨_, rfl⟩
      rw [← hm]
      have hD : (if 0 ≤ lmbd then exp (t1 - m) - exp (t2 - m) else exp (t1 - m) + exp (t2 - m))
          = ((1 + lmbd) * B - 2 * lmbd * ZN) / exp m := by
        rw [exp_sub, exp_sub, ht1, ht2]
        split_ifs with hs
        · rw [abs_of_nonneg hs]; ring
        · rw [abs_of_neg (not_le.1 hs)]; ring
      obtain ⟨D, hDd⟩ : ∃ D, D = (1 + lmbd) * B - 2 * lmbd * ZN := ⟨_, rfl⟩
      rw [hD, ← hDd]
      have hDe : D = (1 - lmbd) * M - 2 * lmbd * (ZN - Z) := by rw [hDd, heq]; ring
      have hsmall : |2 * lmbd * (ZN - Z)| ≤ 1 / 10 ^ 79 * ((1 - lmbd) * M) := by
        rw [abs_mul, abs_mul, abs_two]
        have s1 : 2 * |lmbd| * |ZN - Z| ≤ 2 * (1 / 10 ^ 90 * Z) := by nlinarith [abs_nonneg lmbd, abs_nonneg (ZN - Z)]
        have s2 : 1 / 10 ^ 5 * (1 / 10 ^ 5) / 2 * Z ≤ (1 - lmbd) * M := by
          have : (1 / 10 ^ 5 : ℝ) ≤ 1 - lmbd := by norm_num at hl1 ⊢; linarith
          calc 1 / 10 ^ 5 * (1 / 10 ^ 5) / 2 * Z = 1 / 10 ^ 5 * (1 / 10 ^ 5 / 2 * Z) := by ring
            _ ≤ (1 - lmbd) * ((1 - lmbd) / 2 * Z) := by gcongr
            _ ≤ (1 - lmbd) * M := by gcongr
        refine s1.trans ?_
        have s3 : 2 * (1 / 10 ^ 90 * Z) ≤ 1 / 10 ^ 79 * (1 / 10 ^ 5 * (1 / 10 ^ 5) / 2 * Z) := by
          have e1 : 2 * (1 / 10 ^ 90 * Z) = 2 / 10 ^ 90 * Z := by ring
          have e2 : 1 / 10 ^ 79 * (1 / 10 ^ 5 * (1 / 10 ^ 5) / 2 * Z) = 1 / (2 * 10 ^ 89) * Z := by ring
          rw [e1, e2]
          exact mul_le_mul_of_nonneg_right (by norm_num) hZ0.le
        exact s3.trans (mul_le_mul_of_nonneg_left s2 (by positivity))
      have hP : 0 < (1 - lmbd) * M := mul_pos hlm hM0
      have hsm := abs_le.1 hsmall
      have hD0 : (1 - lmbd) * M / 2 ≤ D := by rw [hDe]; norm_num at hsm; linarith [hsm.2]
      have hDpos : 0 < D := by linarith
      rw [if_neg (not_le.2 (div_pos hDpos (exp_pos _)))]
      refine ⟨_, rfl, exp_pos _, ?_⟩
      rw [log_div hDpos.ne' (exp_pos _).ne', log_exp, exp_sub, exp_log hlm, show m + (log D - m) = log D by ring, exp_log hDpos]
      have e : (1 - lmbd) / D * M - 1 = 2 * lmbd * (ZN - Z) / D := by
        field_simp
        linarith
      rw [e, abs_div, abs_of_pos hDpos, div_le_iff₀ hDpos]
      norm_num at hsmall ⊢
      linarith

theorem invbat_clip {kappa : ℝ} (hk0 : 0 ≤ kappa) (hk1 : kappa ≤ 700) : clip kappa 0 invbatUpper = kappa := by
  unfold clip invbatUpper; rw [max_eq_left hk0, min_eq_left hk1]

/-- At `lmbd = 1` the closed form is exact. -/
theorem invbatC_one {kappa : ℝ} (hk0 : 1 / 10 ^ 9 < kappa) (hk1 : kappa ≤ 700) : invbatC kappa 1 = some (1 / invbatMass kappa 1) := by
  have hk : 0 ≤ kappa := le_trans (by positivity) hk0.le
  have h0 := besselI_zero_pos kappa
  have h1 := besselI_one_lt kappa
  unfold invbatC
  simp only
  rw [invbat_clip hk hk1, if_neg (by unfold invbatTol; linarith), if_pos (by unfold isclose rtolDefault; norm_num)]
  have hK : 0 < 1 - besselI 1 kappa / besselI 0 kappa := by rw [sub_pos, div_lt_one h0]; exact h1
  rw [if_neg (not_le.2 hK), exp_sub, exp_neg, invbatLogMult_eq, exp_log hK, invbatMass_one]
  congr 1
  have h2 : besselI 0 kappa - besselI 1 kappa ≠ 0 := by linarith
  have h3 : 1 - besselI 1 kappa / besselI 0 kappa = (besselI 0 kappa - besselI 1 kappa) / besselI 0 kappa := by field_simp
  have := pi_pos.ne'
  rw [h3]
  field_simp

/-- The normalising constant of the library. -/
theorem invbatC_spec {kappa : ℝ} (hk0 : 1 / 10 ^ 9 < kappa) (hk1 : kappa ≤ 700) {lmbd : ℝ} (hl : |lmbd| ≤ 1)
    (hl0 : lmbd = -1 ∨ -1 + 11 / 10 ^ 6 < lmbd) (hl1 : lmbd = 1 ∨ lmbd < 1 - 11 / 10 ^ 6) :
    ∃ c, invbatC kappa lmbd = some c ∧ 0 < c ∧ |c * invbatMass kappa lmbd - 1| ≤ 1 / 10 ^ 11 := by
  have hk : 0 ≤ kappa := le_trans (by positivity) hk0.le
  rcases hl1 with rfl | hl1
  · have hM := invbatMass_pos hk hl
    refine ⟨_, invbatC_one hk0 hk1, by positivity, ?_⟩
    rw [one_div, inv_mul_cancel₀ hM.ne', sub_self, abs_zero]; positivity
  · obtain ⟨c, hc, hc0, hc1⟩ := invbatCNumeric_eq hk hk1 hl hl0 (by linarith) (le_refl 4096)
    refine ⟨c, ?_, hc0, hc1⟩
    unfold invbatC
    simp only
    rw [invbat_clip hk hk1, if_neg (by unfold invbatTol; linarith), if_neg (by
      unfold isclose rtolDefault
      rw [abs_sub_comm, abs_of_pos (by linarith), abs_one]
      norm_num; linarith), hc]
    simp only
    rw [if_neg (not_le.2 hc0)]

/-! ## The density -/

/-- The density when the cache yields the constant `c`. -/
theorem invbatPdfMethod_eq {solve : (ℝ → ℝ) → Option ℝ} (hs : FindsRoots solve) (st : InvBatState) {xi kappa nu lmbd : ℝ}
    (hx0 : 0 ≤ xi) (hx1 : xi ≤ 2 * π) (hk0 : 1 / 10 ^ 9 < kappa) (hk1 : kappa ≤ 700) (hn : |nu| ≤ 1)
    (hn0 : nu = 0 ∨ 1 / 10 ^ 12 < |nu|) (hl : |lmbd| ≤ 1) (hl0 : lmbd = -1 ∨ -1 + 11 / 10 ^ 6 < lmbd) {c : ℝ} (hc0 : 0 < c)
    (hc : (invbatCached st kappa lmbd).1 = some c) (x : ℝ) :
    (invbatPdfMethod solve st x ⟨xi, kappa, nu, lmbd⟩).1 = some (c * invbatG kappa nu lmbd (wrap2pi x - xi)) := by
  have hk : 0 ≤ kappa := le_trans (by positivity) hk0.le
  have h1 := abs_le.1 hn
  have h2 := abs_le.1 hl
  unfold invbatPdfMethod
  rw [if_neg (not_not.2 (show invbatArgcheck _ from ⟨hx0, hx1, hk, h1.1, h1.2, h2.1, h2.2⟩)), if_pos (wrap2pi_mem x)]
  unfold invbatPdf
  simp only
  rw [invbat_clip hk hk1, if_neg (by unfold invbatTol; linarith), hc]
  simp only
  rw [if_neg (not_le.2 hc0), Option.map_some, invbatLogKernel_eq hs (atol := atolDefault) (by unfold atolDefault; positivity) (le_of_eq rfl) kappa hn hn0 hl hl0,
    max_eq_left (mul_pos hc0 (invbatG_pos _ _ _ _)).le]

end Verif
