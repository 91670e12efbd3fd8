import Verif.Lemmas.InvBatHistory
import Verif.Lemmas.PchipB
import Verif.Model.DistInvBatFit
import Verif.Props.DistCartwrightB
import Verif.Props.DistFlatB

/-! # Properties C102 and C108 for the sampler of the inverse Batschelet distribution -/

set_option autoImplicit false

namespace Verif

open Real MeasureTheory Spec

/-! ## Specification -/

/-- The curve of the inverse Batschelet family at an angle from the location (not normalised). -/
noncomputable def invbatCurve (kappa nu lmbd phi : ℝ) : ℝ := invbatShape kappa lmbd (Function.invFun (invbatAngle nu lmbd) phi)

/-- The density read from a table of the curve `g` with `N` cells: the monotone cubic interpolation of its values on
the grid, divided by their trapezoid integral. -/
noncomputable def tabulatedDensity (N : ℕ) (g : ℝ → ℝ) (phi : ℝ) : ℝ :=
  pchip N (tabGrid N) (fun j => g (tabGrid N j) / tabTrap N (fun j => g (tabGrid N j)) N) phi

/-! ## Helper lemmas -/

private lemma accept_share (r : ℝ) : volume.real {u : ℝ | 0 < u ∧ u < 1 ∧ log u ≤ r} = min 1 (exp r) := by
  have hr := exp_pos r
  rcases le_or_gt 1 (exp r) with h | h
  · have e : {u : ℝ | 0 < u ∧ u < 1 ∧ log u ≤ r} = Set.Ioo 0 1 := by
      ext u
      refine ⟨fun ⟨a, b, _⟩ => ⟨a, b⟩, fun ⟨a, b⟩ => ⟨a, b, ?_⟩⟩
      rw [log_le_iff_le_exp a]; linarith
    rw [e, min_eq_left h]
    simp [Measure.real]
  · have e : {u : ℝ | 0 < u ∧ u < 1 ∧ log u ≤ r} = Set.Ioc 0 (exp r) := by
      ext u
      refine ⟨fun ⟨a, b, c⟩ => ⟨a, (log_le_iff_le_exp a).1 c⟩, fun ⟨a, b⟩ => ⟨a, by linarith, (log_le_iff_le_exp a).2 b⟩⟩
    rw [e, min_eq_right h.le]
    simp [Measure.real, hr.le]

private lemma grid_icc {N : ℕ} (hN : 0 < N) {phi : ℝ} (h0 : -π ≤ phi) (h1 : phi ≤ π) : tabGrid N 0 ≤ phi ∧ phi ≤ tabGrid N N := by
  rw [tabGrid_zero, tabGrid_last hN]; exact ⟨h0, h1⟩

private lemma logMult_eq (k : ℝ) : invbatLogMult k = log (2 * π * besselI 0 k) := by
  rw [← invbatLogMult_eq, log_exp]

private lemma tabRel_measurable (mu : ℝ) : Measurable fun x => tabRel x mu := by
  unfold tabRel
  exact (measurable_pymod.comp ((measurable_id.sub_const mu).add_const π)).sub_const π

private lemma tabRel_pymod (p xi : ℝ) : tabRel p (pymod xi (2 * π)) = tabRel p xi := by
  unfold tabRel
  congr 1
  refine pymod_congr two_pi_pos ?_
  obtain ⟨j, hj⟩ := pymod_cong xi (2 * π)
  exact ⟨-j, by rw [hj]; push_cast; ring⟩

private lemma cos_tabRel (p xi : ℝ) : cos (tabRel p xi) = cos (p - xi) := periodic_tabRel (g := cos) cos_periodic p xi

/-- One trial of the sampler for a table whose values are above the floor. -/
private lemma trial_share {N : ℕ} (hN : 0 < N) {f : ℕ → ℝ} (hf : ∀ j, floatTiny ≤ f j) (xi p : ℝ) :
    volume.real {u : ℝ | 0 < u ∧ u < 1 ∧ invbatTrial N f xi p u ≠ none} =
      min 1 (pchip N (tabGrid N) f (tabRel p xi) /
        (exp (invbatLogMultiplier N f) * (exp (invbatEnvKappa N f * cos (p - xi)) / (2 * π * besselI 0 (invbatEnvKappa N f))))) := by
  have ht : 0 < floatTiny := by unfold floatTiny; positivity
  obtain ⟨m0, m1⟩ := tabRel_mem p xi
  obtain ⟨g0, g1⟩ := grid_icc hN m0 m1.le
  obtain ⟨i, -, -, -, hlow, -⟩ := pchip_between (tabGrid_increasing hN) f hN g0 g1
  have hD : floatTiny ≤ pchip N (tabGrid N) f (tabRel p xi) := (le_min (hf _) (hf _)).trans hlow
  generalize hk : invbatEnvKappa N f = k
  generalize hm : invbatLogMultiplier N f = m
  have hI := besselI_zero_pos k
  have hp := pi_pos
  have e : ∀ u, invbatTrial N f xi p u ≠ none ↔ log u ≤ log (pchip N (tabGrid N) f (tabRel p xi) /
      (exp m * (exp (k * cos (p - xi)) / (2 * π * besselI 0 k)))) := by
    intro u
    unfold invbatTrial
    simp only
    rw [hk, hm, tabRel_pymod, max_eq_left hD, cos_tabRel, logMult_eq]
    rw [log_div (by linarith) (by positivity), log_mul (exp_pos m).ne' (by positivity),
      log_div (exp_pos (k * cos (p - xi))).ne' (by positivity), log_exp, log_exp]
    split_ifs with h
    · simp only [ne_eq, reduceCtorEq, not_false_eq_true, true_iff]; linarith
    · simp only [ne_eq, not_true_eq_false, false_iff]; intro h'; exact h (by linarith)
  simp only [e]
  rw [accept_share, exp_log]
  have : 0 < pchip N (tabGrid N) f (tabRel p xi) := by linarith
  positivity

/-- The multiplier covers the ratio at the nodes with a margin of 2 %. -/
private lemma mult_node {N : ℕ} {f : ℕ → ℝ} (hf : ∀ j, floatTiny ≤ f j) {j : ℕ} (hj : j ≤ N) :
    102 / 100 * f j ≤ exp (invbatLogMultiplier N f) * (exp (invbatEnvKappa N f * cos (tabGrid N j)) / (2 * π * besselI 0 (invbatEnvKappa N f))) := by
  have ht : 0 < floatTiny := by unfold floatTiny; positivity
  unfold invbatLogMultiplier
  simp only
  generalize invbatEnvKappa N f = k
  have hI := besselI_zero_pos k
  have hp := pi_pos
  rw [exp_log (by positivity), logMult_eq]
  have h0 := Finset.le_sup' (fun j => invbatLogPdf f j + log (2 * π * besselI 0 k) - k * cos (tabGrid N j)) (Finset.mem_range.2 (Nat.lt_succ_of_le hj))
  have h1 := exp_le_exp.2 h0
  have hfj : 0 < f j := ht.trans_le (hf j)
  unfold invbatLogPdf at h1 ⊢
  rw [max_eq_left (hf j), exp_sub, exp_add, exp_log hfj, exp_log (by positivity)] at h1
  have he := exp_pos (k * cos (tabGrid N j))
  rw [div_le_iff₀ he] at h1
  rw [← mul_div_assoc, le_div_iff₀ (by positivity)]
  have : (102 : ℝ) / 100 = 1 + 2 / 100 := by norm_num
  rw [this]
  have hh := mul_le_mul_of_nonneg_left h1 (by norm_num : (0 : ℝ) ≤ 1 + 2 / 100)
  refine le_trans (le_of_eq (by ring)) (hh.trans (le_of_eq (by ring)))

/-- Between the nodes the ratio exceeds the multiplier at most by the change of the envelope over a cell. -/
private lemma mult_between {N : ℕ} (hN : 0 < N) {f : ℕ → ℝ} (hf : ∀ j, floatTiny ≤ f j) {phi : ℝ} (h0 : -π ≤ phi) (h1 : phi ≤ π) :
    102 / 100 * exp (-(invbatEnvKappa N f * (2 * π / N))) * pchip N (tabGrid N) f phi ≤
      exp (invbatLogMultiplier N f) * (exp (invbatEnvKappa N f * cos phi) / (2 * π * besselI 0 (invbatEnvKappa N f))) := by
  obtain ⟨g0, g1⟩ := grid_icc hN h0 h1
  obtain ⟨i, hi, c0, c1, -, hup⟩ := pchip_between (tabGrid_increasing hN) f hN g0 g1
  have hk : 0 ≤ invbatEnvKappa N f := by
    unfold invbatEnvKappa clip invbatUpper
    exact le_min (le_max_of_le_right (by positivity)) (by norm_num)
  have hst := tabGrid_step N i
  obtain ⟨j, hj, hd, hle⟩ : ∃ j, j ≤ N ∧ |tabGrid N j - phi| ≤ 2 * π / N ∧ pchip N (tabGrid N) f phi ≤ f j := by
    rcases le_total (f i) (f (i + 1)) with h | h
    · exact ⟨i + 1, hi, by rw [abs_of_nonneg (by linarith)]; linarith, by rwa [max_eq_right h] at hup⟩
    · exact ⟨i, hi.le, by rw [abs_of_nonpos (by linarith)]; linarith, by rwa [max_eq_left h] at hup⟩
  have hn := mult_node hf hj
  have hcos : cos (tabGrid N j) - cos phi ≤ 2 * π / N := by
    refine (le_abs_self _).trans (le_trans ?_ hd)
    exact abs_cos_sub_cos_le _ _
  generalize invbatEnvKappa N f = k at *
  have hI := besselI_zero_pos k
  have hp := pi_pos
  have hM := exp_pos (invbatLogMultiplier N f)
  have e1 : exp (k * cos (tabGrid N j)) * exp (-(k * (2 * π / N))) ≤ exp (k * cos phi) := by
    rw [← exp_add]
    refine exp_le_exp.2 ?_
    have := mul_le_mul_of_nonneg_left hcos hk
    linarith
  calc 102 / 100 * exp (-(k * (2 * π / N))) * pchip N (tabGrid N) f phi
      ≤ 102 / 100 * exp (-(k * (2 * π / N))) * f j := by gcongr
    _ = 102 / 100 * f j * exp (-(k * (2 * π / N))) := by ring
    _ ≤ exp (invbatLogMultiplier N f) * (exp (k * cos (tabGrid N j)) / (2 * π * besselI 0 k)) * exp (-(k * (2 * π / N))) := by gcongr
    _ = exp (invbatLogMultiplier N f) * (exp (k * cos (tabGrid N j)) * exp (-(k * (2 * π / N))) / (2 * π * besselI 0 k)) := by ring
    _ ≤ _ := by gcongr

private lemma bdd_int {g : ℝ → ℝ} (hm : Measurable g) {B : ℝ} (h : ∀ x, |g x| ≤ B) (a b : ℝ) : IntervalIntegrable g volume a b :=
  (intervalIntegrable_const (c := B)).mono_fun hm.aestronglyMeasurable
    (Filter.Eventually.of_forall fun x => by
      show |g x| ≤ |B|
      exact (h x).trans (le_abs_self B))

private lemma tiny_le : floatTiny ≤ exp (-682) := by
  unfold floatTiny
  rw [exp_neg, one_div]
  refine inv_anti₀ (exp_pos _) ?_
  have h2 := log_two_gt_d9
  have e : (2 : ℝ) ^ 1022 = exp (1022 * log 2) := by
    rw [show (1022 : ℝ) * log 2 = log 2 * (1022 : ℕ) by push_cast; ring, exp_mul, exp_log (by norm_num), rpow_natCast]
  rw [e]
  exact exp_le_exp.2 (by linarith)

/-- The table after a history of calls: multiples of the curve, above the floor; the interpolation is a multiple,
close to 1, of the tabulated density. -/
theorem invbat_table_facts {solve : (ℝ → ℝ) → Option ℝ} (hs : FindsRoots solve) (guess : ℝ → ℝ) {calls : List InvBatCall}
    (hcalls : ∀ call ∈ calls, RegularCall call) {xi kappa nu lmbd : ℝ} (h : InvBatRegular xi kappa nu lmbd) (hk : kappa ≤ 340) :
    ∃ a c, 0 < a ∧ 0 < c ∧ |c - 1| ≤ 5 / 10 ^ 10 ∧
      (∀ j, (invbatTable solve (invbatHistory solve guess calls) kappa nu lmbd).1 j
        = a * invbatCurve kappa nu lmbd (tabGrid (invbatGridSize kappa nu lmbd) j)) ∧
      (∀ j, floatTiny ≤ (invbatTable solve (invbatHistory solve guess calls) kappa nu lmbd).1 j) ∧
      ∀ phi, pchip (invbatGridSize kappa nu lmbd) (tabGrid (invbatGridSize kappa nu lmbd))
          (invbatTable solve (invbatHistory solve guess calls) kappa nu lmbd).1 phi
        = c * tabulatedDensity (invbatGridSize kappa nu lmbd) (invbatCurve kappa nu lmbd) phi := by
  obtain ⟨a, ha, hf, hT⟩ := invbat_history_table hs guess hcalls h hk
  have hk0 : 0 ≤ kappa := le_trans (by positivity) h.kappa_mem.1.le
  have hNs : 512 ≤ invbatGridSize kappa nu lmbd := (tabSize_spec _).1
  generalize invbatGridSize kappa nu lmbd = N at *
  have hN : 0 < N := by omega
  obtain ⟨t0, t1⟩ := invbat_trap_bounds hk0 nu lmbd hN
  rw [hf]
  have hG : invbatCurve kappa nu lmbd = invbatG kappa nu lmbd := rfl
  unfold tabulatedDensity
  simp only [hG]
  obtain ⟨T, hTd⟩ : ∃ T, T = tabTrap N (fun j => invbatG kappa nu lmbd (tabGrid N j)) N := ⟨_, rfl⟩
  rw [← hTd] at hT t0 t1 ⊢
  have hTp : 0 < T := lt_of_lt_of_le (by positivity) t0
  refine ⟨a, a * T, ha, by positivity, hT, fun _ => rfl, fun j => ?_, fun phi => ?_⟩
  · refine tiny_le.trans ?_
    have h1 : 1 - 5 / 10 ^ 10 ≤ a * T := by have := (abs_le.1 hT).1; linarith
    have h2 : a * T ≤ a * (2 * π * exp kappa) := mul_le_mul_of_nonneg_left t1 ha.le
    have h3 : exp (-682) ≤ a * exp (-kappa) := by
      have e1 : exp (-682) * exp kappa * exp kappa ≤ exp (-2) := by
        rw [← exp_add, ← exp_add]
        exact exp_le_exp.2 (by linarith)
      have e2 : exp (-2) * (2 * π) ≤ 1 - 5 / 10 ^ 10 := by
        have := exp_one_gt_d9
        have h4 : (7.29 : ℝ) ≤ exp 2 := by
          rw [show (2 : ℝ) = 1 + 1 by norm_num, exp_add]
          nlinarith
        rw [exp_neg]
        have hpi := pi_lt_d2
        rw [inv_mul_le_iff₀ (exp_pos _)]
        nlinarith
      have e3 : exp (-682) * exp kappa * (2 * π * exp kappa) ≤ a * (2 * π * exp kappa) := by
        calc exp (-682) * exp kappa * (2 * π * exp kappa) = exp (-682) * exp kappa * exp kappa * (2 * π) := by ring
          _ ≤ exp (-2) * (2 * π) := by gcongr
          _ ≤ a * (2 * π * exp kappa) := by linarith
      have e4 := le_of_mul_le_mul_right e3 (by positivity)
      rw [exp_neg kappa, ← div_eq_mul_inv, le_div_iff₀ (exp_pos _)]
      exact e4
    exact h3.trans (mul_le_mul_of_nonneg_left (invbatG_ge hk0 _ _ _) ha.le)
  · rw [← pchip_mul (by positivity)]
    congr 1
    funext j
    field_simp

/-! ## C102: the sampler -/

/-- **C102.** The sampler of the inverse Batschelet distribution, after any history of calls and for `kappa ≤ 340`. A trial
returns the proposal, reduced to `[0, 2π)`, or rejects it. The share `a p` of uniform draws for which the proposal `p` is
accepted makes the proposal density times `a` proportional to the tabulated density at the grid angles, and up to the factor
`q = min(1, 1.02 exp(-k 2π/N))` everywhere, with `k` the concentration of the proposals and `N` the size of the table. So the
distribution of the accepted proposals differs from the tabulated one at most by that factor. -/
theorem C102_invbat (solve : (ℝ → ℝ) → Option ℝ) (hs : FindsRoots solve) (guess : ℝ → ℝ) (calls : List InvBatCall)
    (hcalls : ∀ call ∈ calls, RegularCall call) (xi kappa nu lmbd : ℝ) (h : InvBatRegular xi kappa nu lmbd) (hk : kappa ≤ 340) :
    let N := invbatGridSize kappa nu lmbd
    let f := (invbatTable solve (invbatHistory solve guess calls) kappa nu lmbd).1
    let k := invbatEnvKappa N f
    let env := fun p => exp (k * cos (p - xi)) / (2 * π * besselI 0 k)
    let D := fun p => tabulatedDensity N (invbatCurve kappa nu lmbd) (tabRel p xi)
    let q := min 1 (102 / 100 * exp (-(k * (2 * π / N))))
    (∀ p u x, invbatTrial N f xi p u = some x → x = pymod p (2 * π)) ∧
    ∃ (a : ℝ → ℝ) (M : ℝ), 0 < M ∧ Measurable a ∧
      (∀ p, volume.real {u : ℝ | 0 < u ∧ u < 1 ∧ invbatTrial N f xi p u ≠ none} = a p) ∧
      (∀ p j, j ≤ N → tabRel p xi = tabGrid N j → M * (env p * a p) = D p) ∧
      (∀ p, q * D p ≤ M * (env p * a p) ∧ M * (env p * a p) ≤ D p) ∧
      (0 < ∫ p in (0 : ℝ)..(2 * π), env p * a p) ∧
      ∀ x, 0 ≤ x → x ≤ 2 * π →
        q * ((∫ p in (0 : ℝ)..x, D p) / ∫ p in (0 : ℝ)..(2 * π), D p) ≤ (∫ p in (0 : ℝ)..x, env p * a p) / ∫ p in (0 : ℝ)..(2 * π), env p * a p ∧
        q * ((∫ p in (0 : ℝ)..x, env p * a p) / ∫ p in (0 : ℝ)..(2 * π), env p * a p) ≤ (∫ p in (0 : ℝ)..x, D p) / ∫ p in (0 : ℝ)..(2 * π), D p := by
  intro N f k env D q
  have hNs : 512 ≤ N := (tabSize_spec _).1
  have hN : 0 < N := by omega
  obtain ⟨a0, c, ha0, hc, -, hfa, hft, hpc⟩ := invbat_table_facts hs guess hcalls h hk
  have hk0 : 0 ≤ kappa := le_trans (by positivity) h.kappa_mem.1.le
  refine ⟨fun p u x hx => ?_, ?_⟩
  · unfold invbatTrial at hx
    simp only at hx
    split_ifs at hx
    exact (Option.some.inj hx).symm
  have hM0 := exp_pos (invbatLogMultiplier N f)
  have hI := besselI_zero_pos k
  have hpi := pi_pos
  have henv : ∀ p, 0 < env p := fun p => by positivity
  have hT0 : 0 < floatTiny := by unfold floatTiny; positivity
  have hDpos : ∀ p, 0 < D p ∧ c * D p ≤ a0 * exp kappa := fun p => by
    obtain ⟨m0, m1⟩ := tabRel_mem p xi
    obtain ⟨g0, g1⟩ := grid_icc hN m0 m1.le
    obtain ⟨i, -, -, -, hlow, hup⟩ := pchip_between (tabGrid_increasing hN) f hN g0 g1
    rw [hpc] at hlow hup
    have hl : floatTiny ≤ c * D p := (le_min (hft _) (hft _)).trans hlow
    refine ⟨pos_of_mul_pos_right (hT0.trans_le hl) hc.le, hup.trans ?_⟩
    have : ∀ j, f j ≤ a0 * exp kappa := fun j => by
      show (invbatTable solve (invbatHistory solve guess calls) kappa nu lmbd).1 j ≤ _
      rw [hfa]
      exact mul_le_mul_of_nonneg_left (invbatG_le hk0 _ _ _) ha0.le
    exact max_le (this _) (this _)
  have hDm : Measurable D := (pchip_measurable _ _ _).comp (tabRel_measurable xi)
  have henvc : Continuous env := by fun_prop
  obtain ⟨a, ha⟩ : ∃ a : ℝ → ℝ, a = fun p => min 1 (c * D p / (exp (invbatLogMultiplier N f) * env p)) := ⟨_, rfl⟩
  have ham : Measurable a := by
    rw [ha]
    exact measurable_const.min ((hDm.const_mul c).div (henvc.measurable.const_mul _))
  obtain ⟨M, hM⟩ : ∃ M, M = exp (invbatLogMultiplier N f) / c := ⟨_, rfl⟩
  have hMp : 0 < M := by rw [hM]; positivity
  have hMa : ∀ p, M * (env p * a p) = min (M * env p) (D p) := fun p => by
    rw [ha]
    simp only
    rw [← mul_assoc, mul_min_of_nonneg _ _ (by have := henv p; positivity), mul_one]
    congr 1
    have := henv p
    rw [hM]
    field_simp
  have hq1 : q ≤ 1 := min_le_left _ _
  have hq0 : 0 < q := lt_min one_pos (by positivity)
  have hbnd : ∀ p, q * D p ≤ M * (env p * a p) ∧ M * (env p * a p) ≤ D p := fun p => by
    rw [hMa]
    refine ⟨le_min ?_ ?_, min_le_right _ _⟩
    · obtain ⟨m0, m1⟩ := tabRel_mem p xi
      have hb := mult_between hN hft m0 m1.le
      rw [hpc, cos_tabRel] at hb
      have h1 : q * D p ≤ 102 / 100 * exp (-(k * (2 * π / N))) * D p :=
        mul_le_mul_of_nonneg_right (min_le_right _ _) (hDpos p).1.le
      refine h1.trans ?_
      rw [hM, show exp (invbatLogMultiplier N f) / c * env p = exp (invbatLogMultiplier N f) * env p / c by ring, le_div_iff₀ hc]
      refine le_trans (le_of_eq ?_) hb
      ring
    · exact mul_le_of_le_one_left (hDpos p).1.le hq1
  have hapos : ∀ p, 0 < env p * a p := fun p => by
    have h1 := (hbnd p).1
    have h2 := mul_pos hq0 (hDpos p).1
    exact pos_of_mul_pos_right (h2.trans_le h1) hMp.le
  have hDi : ∀ x y, IntervalIntegrable D volume x y := fun x y => bdd_int hDm (B := a0 * exp kappa / c) (fun p => by
    rw [abs_of_pos (hDpos p).1, le_div_iff₀ hc]
    have := (hDpos p).2
    linarith) x y
  have hai : ∀ x y, IntervalIntegrable (fun p => env p * a p) volume x y := fun x y =>
    bdd_int (henvc.measurable.mul ham) (B := a0 * exp kappa / c / M) (fun p => by
      show |env p * a p| ≤ _
      rw [abs_of_pos (hapos p), le_div_iff₀ hMp, le_div_iff₀ hc]
      have h1 := (hbnd p).2
      have h2 := (hDpos p).2
      calc env p * a p * M * c = c * (M * (env p * a p)) := by ring
        _ ≤ c * D p := by gcongr
        _ ≤ _ := h2) x y
  have hint : ∀ x, 0 ≤ x → q * (∫ p in (0 : ℝ)..x, D p) ≤ M * (∫ p in (0 : ℝ)..x, env p * a p) ∧
      M * (∫ p in (0 : ℝ)..x, env p * a p) ≤ ∫ p in (0 : ℝ)..x, D p := fun x hx => by
    rw [← intervalIntegral.integral_const_mul, ← intervalIntegral.integral_const_mul]
    exact ⟨intervalIntegral.integral_mono_on hx ((hDi _ _).const_mul q) ((hai _ _).const_mul M) fun p _ => (hbnd p).1,
      intervalIntegral.integral_mono_on hx ((hai _ _).const_mul M) (hDi _ _) fun p _ => (hbnd p).2⟩
  have hDtot : 0 < ∫ p in (0 : ℝ)..(2 * π), D p :=
    intervalIntegral.intervalIntegral_pos_of_pos (hDi _ _) (fun p => (hDpos p).1) two_pi_pos
  have hatot : 0 < ∫ p in (0 : ℝ)..(2 * π), env p * a p :=
    intervalIntegral.intervalIntegral_pos_of_pos (hai _ _) hapos two_pi_pos
  refine ⟨a, M, hMp, ham, fun p => ?_, fun p j hj hp => ?_, hbnd, hatot, fun x h0 h1 => ?_⟩
  · rw [ha, trial_share hN hft, hpc]
  · rw [hMa, min_eq_right]
    have hn := mult_node hft hj
    rw [← hp, cos_tabRel] at hn
    have hnode : c * D p = f j := by
      show c * tabulatedDensity N (invbatCurve kappa nu lmbd) (tabRel p xi) = f j
      rw [← hpc, hp, pchip_node hN (tabGrid_increasing hN) _ hj]
    have hfj : 0 < f j := hT0.trans_le (hft j)
    rw [hM, div_mul_eq_mul_div, le_div_iff₀ hc, mul_comm, hnode]
    refine le_trans ?_ hn
    show f j ≤ 102 / 100 * f j
    linarith
  · obtain ⟨A1, A2⟩ := hint x h0
    obtain ⟨B1, B2⟩ := hint (2 * π) two_pi_pos.le
    obtain ⟨Dx, hDx⟩ : ∃ v, v = ∫ p in (0 : ℝ)..x, D p := ⟨_, rfl⟩
    obtain ⟨Ax, hAx⟩ : ∃ v, v = ∫ p in (0 : ℝ)..x, env p * a p := ⟨_, rfl⟩
    obtain ⟨DT, hDT⟩ : ∃ v, v = ∫ p in (0 : ℝ)..(2 * π), D p := ⟨_, rfl⟩
    obtain ⟨AT, hAT⟩ : ∃ v, v = ∫ p in (0 : ℝ)..(2 * π), env p * a p := ⟨_, rfl⟩
    have hDx0 : 0 ≤ Dx := by rw [hDx]; exact intervalIntegral.integral_nonneg h0 fun p _ => (hDpos p).1.le
    have hAx0 : 0 ≤ Ax := by rw [hAx]; exact intervalIntegral.integral_nonneg h0 fun p _ => (hapos p).le
    rw [← hDx, ← hAx] at A1 A2
    rw [← hDT, ← hAT] at B1 B2
    rw [← hDT] at hDtot
    rw [← hAT] at hatot
    rw [← hDx, ← hAx, ← hDT, ← hAT]
    constructor
    · rw [← mul_div_assoc, div_le_div_iff₀ hDtot hatot]
      -- q Dx AT ≤ Ax DT
      have e1 : q * Dx * (M * AT) ≤ M * Ax * DT := mul_le_mul A1 B2 (by positivity) (by positivity)
      refine le_of_mul_le_mul_left ?_ hMp
      linarith
    · rw [← mul_div_assoc, div_le_div_iff₀ hatot hDtot]
      -- q Ax DT ≤ Dx AT
      have e1 : M * Ax * (q * DT) ≤ Dx * (M * AT) := mul_le_mul A2 B1 (by positivity) hDx0
      refine le_of_mul_le_mul_left ?_ hMp
      linarith

/-! ## C108: the share of accepted proposals -/

private lemma curve_zero {nu : ℝ} (hn : |nu| ≤ 1) (phi : ℝ) :
    ∃ y, y - nu * (1 + cos y) = phi ∧ ∀ kappa, invbatCurve kappa nu 0 phi = exp (kappa * cos y) := by
  have h := invbatAngle_U hn (show |(0 : ℝ)| ≤ 1 by norm_num) phi
  refine ⟨invbatU nu 0 phi - (1 + 0) / 2 * sin (invbatU nu 0 phi), h, fun kappa => ?_⟩
  show invbatShape kappa 0 (invbatU nu 0 phi) = _
  unfold invbatShape
  rw [sub_zero, add_zero]

private lemma cos_le_quad {x : ℝ} (h0 : 0 ≤ x) (h1 : x ≤ 1 / 25) : cos x ≤ 1 - 49 / 100 * x ^ 2 := by
  have h := (abs_le.1 (cos_bound (x := x) (by rw [abs_of_nonneg h0]; linarith))).2
  rw [abs_of_nonneg h0] at h
  have h2 : x ^ 4 * (5 / 96) ≤ x ^ 2 * (1 / 100) := by
    have : x ^ 2 ≤ (1 / 25) ^ 2 := pow_le_pow_left₀ h0 h1 2
    nlinarith [sq_nonneg x]
  linarith

private lemma diff_core {nu s S X H p q : ℝ} (n0 : 0 ≤ nu) (hs0 : 0 ≤ s) (hp : 0 < p) (hq : 0 < q) (hp1 : p ≤ 1) (hq1 : q ≤ 1)
    (hd : p - q = nu * S) (hS : S = X - s * (sin p - sin q)) (hX : X ≤ H) (hH : H ≤ 0) : S * (1 + nu * s) ≤ H := by
  have hs : sin p - sin q = 2 * sin ((p - q) / 2) * cos ((p + q) / 2) := sin_sub_sin p q
  have hcm0 : 0 ≤ cos ((p + q) / 2) := cos_nonneg_of_neg_pi_div_two_le_of_le (by linarith [pi_gt_three]) (by linarith [pi_gt_three])
  have hcm1 := cos_le_one ((p + q) / 2)
  have hS0 : S ≤ 0 := by
    by_contra hc
    push Not at hc
    have hpq : 0 ≤ p - q := by rw [hd]; positivity
    have hsn : 0 ≤ sin ((p - q) / 2) := sin_nonneg_of_nonneg_of_le_pi (by linarith) (by linarith [pi_gt_three])
    have : 0 ≤ s * (sin p - sin q) := by rw [hs]; positivity
    linarith
  have hpq : p - q ≤ 0 := by rw [hd]; exact mul_nonpos_of_nonneg_of_nonpos n0 hS0
  have hsn : p - q ≤ 2 * sin ((p - q) / 2) := by
    have := sin_le (x := -((p - q) / 2)) (by linarith)
    rw [sin_neg] at this
    linarith
  have hsn0 : sin ((p - q) / 2) ≤ 0 := by
    have := sin_nonneg_of_nonneg_of_le_pi (x := -((p - q) / 2)) (by linarith) (by linarith [pi_gt_three])
    rw [sin_neg] at this
    linarith
  have hsd : p - q ≤ sin p - sin q := by
    rw [hs]
    have : 2 * sin ((p - q) / 2) * 1 ≤ 2 * sin ((p - q) / 2) * cos ((p + q) / 2) := mul_le_mul_of_nonpos_left hcm1 (by linarith)
    linarith
  have h5 := mul_le_mul_of_nonneg_left hsd hs0
  rw [hd] at h5
  calc S * (1 + nu * s) = S + s * (nu * S) := by ring
    _ ≤ H := by linarith

private lemma ratio_core {S u h2 : ℝ} (hu0 : 0 ≤ u) (hu : u ≤ 425 / 1000) (h0 : 0 < h2) (hm : S * (1 + u) ≤ 638 / 1000 * (-(469 / 1000) * h2)) :
    S ≤ -(1 / 5) * h2 := by
  by_contra hc
  push Not at hc
  have h3 : -(1 / 5) * h2 * (1 + u) ≤ S * (1 + u) := mul_le_mul_of_nonneg_right hc.le (by linarith)
  have h4 : h2 * (1 + u) ≤ h2 * (1425 / 1000) := mul_le_mul_of_nonneg_left (by linarith) h0.le
  linarith

/-- The second difference of the cosine along the skewed curve. -/
private lemma second_diff {nu h y0 y1 y2 : ℝ} (n0 : 0 ≤ nu) (n1 : nu ≤ 1 / 2) (h0 : 0 < h) (h1 : h ≤ 1 / 50)
    (e0 : y0 - nu * (1 + cos y0) = 0) (e1 : y1 - nu * (1 + cos y1) = h) (e2 : y2 - nu * (1 + cos y2) = -h) :
    cos y1 - 2 * cos y0 + cos y2 ≤ -(1 / 5) * h ^ 2 := by
  have hn : |nu| ≤ 1 := abs_le.2 ⟨by linarith, by linarith⟩
  have hm := invbat_nu_strictMono hn
  have y00 : 0 ≤ y0 := by
    refine hm.le_iff_le.1 ?_
    simp only [cos_zero]
    rw [e0]; linarith
  have y01 : y0 ≤ 85 / 100 := by
    refine hm.le_iff_le.1 ?_
    rw [e0]
    have hb := (abs_le.1 (cos_bound (x := 85 / 100) (by norm_num [abs_of_nonneg]))).2
    rw [abs_of_nonneg (by norm_num : (0 : ℝ) ≤ 85 / 100)] at hb
    have hb' : cos (85 / 100) ≤ 67 / 100 := by
      have : (1 - (85 / 100 : ℝ) ^ 2 / 2) + (85 / 100) ^ 4 * (5 / 96) ≤ 67 / 100 := by norm_num
      linarith
    have hb0 : 0 ≤ 1 + cos (85 / 100) := by linarith [neg_one_le_cos (85 / 100)]
    nlinarith [mul_le_mul_of_nonneg_right n1 hb0]
  have hp : 0 < y1 - y0 := by
    have : y0 < y1 := hm.lt_iff_lt.1 (by rw [e0, e1]; exact h0)
    linarith
  have hq : 0 < y0 - y2 := by
    have : y2 < y0 := hm.lt_iff_lt.1 (by rw [e0, e2]; linarith)
    linarith
  obtain ⟨p, hpd⟩ : ∃ p, p = y1 - y0 := ⟨_, rfl⟩
  obtain ⟨q, hqd⟩ : ∃ q, q = y0 - y2 := ⟨_, rfl⟩
  rw [← hpd] at hp
  rw [← hqd] at hq
  have ep : y1 = y0 + p := by linarith
  have eq : y2 = y0 - q := by linarith
  obtain ⟨A, hA⟩ : ∃ A, A = cos y1 - cos y0 := ⟨_, rfl⟩
  obtain ⟨B, hB⟩ : ∃ B, B = cos y2 - cos y0 := ⟨_, rfl⟩
  have rp : p = h + nu * A := by rw [hA]; linarith
  have rq : q = h - nu * B := by rw [hB]; linarith
  have aA : |A| ≤ p := by
    have := abs_cos_sub_cos_le y1 y0
    rw [← hA, ep, add_sub_cancel_left, abs_of_pos hp] at this; exact this
  have aB : |B| ≤ q := by
    have := abs_cos_sub_cos_le y2 y0
    rw [← hB, eq, show y0 - q - y0 = -q by ring, abs_neg, abs_of_pos hq] at this; exact this
  have p2 : p ≤ 2 * h := by
    have h3 : nu * A ≤ nu * p := mul_le_mul_of_nonneg_left ((le_abs_self A).trans aA) n0
    have h4 : nu * p ≤ 1 / 2 * p := mul_le_mul_of_nonneg_right n1 hp.le
    linarith
  have q2 : q ≤ 2 * h := by
    have hB' : -q ≤ B := by have := neg_abs_le B; linarith
    have h3 : nu * (-q) ≤ nu * B := mul_le_mul_of_nonneg_left hB' n0
    have h4 : nu * q ≤ 1 / 2 * q := mul_le_mul_of_nonneg_right n1 hq.le
    nlinarith
  have hsin : ∀ m, |m| ≤ 89 / 100 → |sin m| ≤ 89 / 100 := fun m hm => abs_sin_le_abs.trans hm
  have mA : |A| ≤ 89 / 100 * p := by
    have hs := hsin ((y1 + y0) / 2) (abs_le.2 ⟨by linarith, by linarith⟩)
    have h2 : |sin ((y1 - y0) / 2)| ≤ p / 2 := by
      refine abs_sin_le_abs.trans (le_of_eq ?_)
      rw [← hpd, abs_of_pos (by linarith)]
    rw [hA, cos_sub_cos, abs_mul, abs_mul, abs_neg, abs_two]
    have := mul_le_mul hs h2 (abs_nonneg _) (by norm_num)
    linarith
  have mB : |B| ≤ 89 / 100 * q := by
    have hs := hsin ((y2 + y0) / 2) (abs_le.2 ⟨by linarith, by linarith⟩)
    have h2 : |sin ((y2 - y0) / 2)| ≤ q / 2 := by
      refine abs_sin_le_abs.trans (le_of_eq ?_)
      rw [show (y2 - y0) / 2 = -(q / 2) by linarith, abs_neg, abs_of_pos (by linarith)]
    rw [hB, cos_sub_cos, abs_mul, abs_mul, abs_neg, abs_two]
    have := mul_le_mul hs h2 (abs_nonneg _) (by norm_num)
    linarith
  have p3 : h ≤ 1445 / 1000 * p := by
    have h3 : nu * (-A) ≤ nu * (89 / 100 * p) := mul_le_mul_of_nonneg_left ((neg_le_abs A).trans mA) n0
    have h4 : nu * (89 / 100 * p) ≤ 1 / 2 * (89 / 100 * p) := mul_le_mul_of_nonneg_right n1 (by positivity)
    linarith
  have q3 : h ≤ 1445 / 1000 * q := by
    have h3 : nu * B ≤ nu * (89 / 100 * q) := mul_le_mul_of_nonneg_left ((le_abs_self B).trans mB) n0
    have h4 : nu * (89 / 100 * q) ≤ 1 / 2 * (89 / 100 * q) := mul_le_mul_of_nonneg_right n1 (by positivity)
    linarith
  have hcp := cos_le_quad hp.le (by linarith)
  have hcq := cos_le_quad hq.le (by linarith)
  have hpp : h ^ 2 ≤ (1445 / 1000) ^ 2 * p ^ 2 := by rw [← mul_pow]; exact pow_le_pow_left₀ h0.le p3 2
  have hqq : h ^ 2 ≤ (1445 / 1000) ^ 2 * q ^ 2 := by rw [← mul_pow]; exact pow_le_pow_left₀ h0.le q3 2
  have hsum : cos p + cos q - 2 ≤ -(469 / 1000) * h ^ 2 := by
    have h2 : 0 < h ^ 2 := by positivity
    have k : ((1445 : ℝ) / 1000) ^ 2 ≤ 2089 / 1000 := by norm_num
    have h3 : h ^ 2 ≤ 2089 / 1000 * p ^ 2 := hpp.trans (mul_le_mul_of_nonneg_right k (sq_nonneg p))
    have h4 : h ^ 2 ≤ 2089 / 1000 * q ^ 2 := hqq.trans (mul_le_mul_of_nonneg_right k (sq_nonneg q))
    linarith
  have hc0 : 638 / 1000 ≤ cos y0 := by
    have := one_sub_sq_div_two_le_cos (x := y0)
    have h2 : y0 ^ 2 ≤ (85 / 100) ^ 2 := pow_le_pow_left₀ y00 y01 2
    norm_num at h2
    linarith
  have hs0 : 0 ≤ sin y0 := sin_nonneg_of_nonneg_of_le_pi y00 (by linarith [pi_gt_three])
  have hs1 : sin y0 ≤ 85 / 100 := (sin_le y00).trans y01
  have hAB : A + B = cos y0 * (cos p + cos q - 2) - sin y0 * (sin p - sin q) := by
    rw [hA, hB, ep, eq, cos_add, cos_sub]; ring
  have hneg : cos y0 * (cos p + cos q - 2) ≤ 638 / 1000 * (-(469 / 1000) * h ^ 2) := by
    have h2 : 0 < h ^ 2 := by positivity
    have h3 : cos p + cos q - 2 ≤ 0 := by linarith
    exact (mul_le_mul_of_nonpos_right hc0 h3).trans (mul_le_mul_of_nonneg_left hsum (by norm_num))
  have hmain : (A + B) * (1 + nu * sin y0) ≤ 638 / 1000 * (-(469 / 1000) * h ^ 2) := by
    have h2 : 0 < h ^ 2 := by positivity
    exact diff_core n0 hs0 hp hq (by linarith) (by linarith) (by rw [rp, rq]; ring) hAB hneg (by linarith)
  have hden : nu * sin y0 ≤ 1 / 2 * (85 / 100) := mul_le_mul n1 hs1 hs0 (by norm_num)
  have hfin := ratio_core (mul_nonneg n0 hs0) (hden.trans (by norm_num)) (by positivity : 0 < h ^ 2) hmain
  rw [hA, hB] at hfin
  linarith

private lemma tabSize_even (a : ℝ) : ∃ m, tabSize a = 2 * m := by
  unfold tabSize
  simp only
  generalize min (max (2 ^ ⌈logb 2 (clip (64 + 12 * a) 512 8192)⌉₊) 512) 8192 = S
  split_ifs with h
  · exact ⟨(S + 1) / 2, by omega⟩
  · exact ⟨S / 2, by omega⟩

/-- The concentration of the proposals is at least a fifth of that of the distribution. -/
private lemma envKappa_ge {N : ℕ} (hN : 512 ≤ N) (heven : ∃ m, N = 2 * m) {f : ℕ → ℝ} {a kappa nu : ℝ} (ha : 0 < a) (hk0 : 0 ≤ kappa) (hk1 : kappa ≤ 340)
    (n0 : 0 ≤ nu) (n1 : nu ≤ 1 / 2) (hf : ∀ j, floatTiny ≤ f j) (hfa : ∀ j, f j = a * invbatCurve kappa nu 0 (tabGrid N j)) :
    kappa / 5 ≤ invbatEnvKappa N f := by
  obtain ⟨m, rfl⟩ := heven
  have hm : (0 : ℝ) < m := by
    have : 0 < m := by omega
    exact_mod_cast this
  have hn : |nu| ≤ 1 := abs_le.2 ⟨by linarith, by linarith⟩
  have hL : ∀ j, ∃ y, y - nu * (1 + cos y) = tabGrid (2 * m) j ∧ invbatLogPdf f j = log a + kappa * cos y := fun j => by
    obtain ⟨y, h1, h2⟩ := curve_zero hn (tabGrid (2 * m) j)
    refine ⟨y, h1, ?_⟩
    unfold invbatLogPdf
    rw [max_eq_left (hf j), hfa, h2, log_mul ha.ne' (exp_pos _).ne', log_exp]
  have hpi := pi_pos
  have hhalf : 2 * m / 2 = m := by omega
  have hg : tabGrid (2 * m) m = 0 := by unfold tabGrid; push_cast; field_simp; ring
  obtain ⟨h, hh⟩ : ∃ h, h = 2 * π / ((2 * m : ℕ) : ℝ) := ⟨_, rfl⟩
  have hN' : (512 : ℝ) ≤ ((2 * m : ℕ) : ℝ) := by exact_mod_cast hN
  have hh0 : 0 < h := by rw [hh]; positivity
  have hh1 : h ≤ 1 / 50 := by
    rw [hh, div_le_iff₀ (by linarith)]
    have := pi_lt_d2
    linarith
  have hg1 : tabGrid (2 * m) (m + 1) = h := by have := tabGrid_step (2 * m) m; rw [hg, ← hh] at this; linarith
  have hg2 : tabGrid (2 * m) (m - 1) = -h := by
    have := tabGrid_step (2 * m) (m - 1)
    rw [Nat.sub_add_cancel (by omega), hg, ← hh] at this; linarith
  obtain ⟨y0, e0, l0⟩ := hL m
  obtain ⟨y1, e1, l1⟩ := hL (m + 1)
  obtain ⟨y2, e2, l2⟩ := hL (m - 1)
  rw [hg] at e0
  rw [hg1] at e1
  rw [hg2] at e2
  have hsd := second_diff n0 n1 hh0 hh1 e0 e1 e2
  unfold invbatEnvKappa
  simp only
  rw [hhalf, ← hh, l0, l1, l2]
  have hd : kappa / 5 ≤ -((log a + kappa * cos y1 - 2 * (log a + kappa * cos y0) + (log a + kappa * cos y2)) / h ^ 2) := by
    rw [← neg_div, le_div_iff₀ (by positivity)]
    have := mul_le_mul_of_nonneg_left hsd hk0
    linarith
  unfold clip invbatUpper
  refine le_min (le_max_of_le_left (hd.trans (le_max_left _ _))) (by linarith)

/-- The node just beyond the peak. -/
private lemma peak_node {N : ℕ} (hNs : 512 ≤ N) {f : ℕ → ℝ} {a0 kappa nu : ℝ} (ha0 : 0 < a0) (hk0 : 0 ≤ kappa) (hk : kappa ≤ 340)
    (hn0 : 0 < nu) (hn1 : nu ≤ 1 / 2) (hfa' : ∀ j, f j = a0 * invbatCurve kappa nu 0 (tabGrid N j)) :
    ∃ j, j ≤ N ∧ cos (tabGrid N j) ≤ cos (2 * nu) ∧ a0 * exp (kappa - 11 / 100) ≤ f j := by
  have hpi := pi_pos
  obtain ⟨hh, hhd⟩ : ∃ hh, hh = 2 * π / (N : ℝ) := ⟨_, rfl⟩
  have hN' : (512 : ℝ) ≤ N := by exact_mod_cast hNs
  have hh0 : 0 < hh := by rw [hhd]; positivity
  have hh1 : hh ≤ 123 / 10000 := by
    rw [hhd, div_le_iff₀ (by linarith)]
    have := pi_lt_d4
    linarith
  obtain ⟨j, hjN, hj0, hj1⟩ : ∃ j, j ≤ N ∧ -2 * nu - hh ≤ tabGrid N j ∧ tabGrid N j ≤ -2 * nu := by
    have hq : 0 ≤ (π - 2 * nu) / hh := div_nonneg (by linarith [pi_gt_three]) hh0.le
    have f1 := Nat.floor_le hq
    have f2 := Nat.lt_floor_add_one ((π - 2 * nu) / hh)
    rw [le_div_iff₀ hh0] at f1
    rw [div_lt_iff₀ hh0] at f2
    have e : tabGrid N ⌊(π - 2 * nu) / hh⌋₊ = -π + ⌊(π - 2 * nu) / hh⌋₊ * hh := by unfold tabGrid; rw [hhd]
    refine ⟨⌊(π - 2 * nu) / hh⌋₊, ?_, by rw [e]; linarith, by rw [e]; linarith⟩
    refine Nat.floor_le_of_le ?_
    rw [div_le_iff₀ hh0, hhd, mul_div_cancel₀ _ (by linarith)]
    linarith
  have hcosj : cos (tabGrid N j) ≤ cos (2 * nu) := by
    rw [← cos_neg (tabGrid N j)]
    exact cos_le_cos_of_nonneg_of_le_pi (by linarith) (by linarith [pi_gt_three]) (by linarith)
  have hna : |nu| ≤ 1 := abs_le.2 ⟨by linarith, by linarith⟩
  obtain ⟨y, hy, hcy⟩ := curve_zero hna (tabGrid N j)
  have hmono := invbat_nu_strictMono hna
  have hy0 : y ≤ 0 := by
    refine hmono.le_iff_le.1 ?_
    simp only [cos_zero]
    rw [hy]; linarith
  have hy1 : -2 * hh ≤ y := by
    refine hmono.le_iff_le.1 ?_
    show -2 * hh - nu * (1 + cos (-2 * hh)) ≤ y - nu * (1 + cos y)
    rw [hy]
    have hc2 := one_sub_sq_div_two_le_cos (x := -2 * hh)
    have h3 := mul_le_mul_of_nonneg_left hc2 hn0.le
    have h4 : nu * (2 * hh ^ 2) ≤ hh := by
      have : 2 * hh ^ 2 ≤ hh := by nlinarith
      nlinarith
    linarith
  have hcy1 : 1 - 2 * hh ^ 2 ≤ cos y := by
    have := one_sub_sq_div_two_le_cos (x := y)
    have h2 : y ^ 2 ≤ (2 * hh) ^ 2 := by rw [sq_le_sq, abs_of_nonpos hy0, abs_of_pos (by linarith)]; linarith
    linarith
  have hfj : a0 * exp (kappa - 11 / 100) ≤ f j := by
    rw [hfa', hcy]
    refine mul_le_mul_of_nonneg_left (exp_le_exp.2 ?_) ha0.le
    have h2 := mul_le_mul_of_nonneg_left hcy1 hk0
    have h3 : hh ^ 2 ≤ (123 / 10000) ^ 2 := pow_le_pow_left₀ hh0.le hh1 2
    have h4 : kappa * (2 * hh ^ 2) ≤ 340 * (2 * (123 / 10000) ^ 2) := mul_le_mul hk (by linarith) (by positivity) (by norm_num)
    have h5 : (340 : ℝ) * (2 * (123 / 10000) ^ 2) ≤ 11 / 100 := by norm_num
    linarith
  exact ⟨j, hjN, hcosj, hfj⟩

private lemma accept_numbers {k kappa nu a0 M Z : ℝ} (hkn : 0 ≤ k) (hk700 : k ≤ 700) (hkenv : kappa / 5 ≤ k) (ha0 : 0 < a0) (hM0 : 0 < M)
    (hZl : 2 * exp (k - 1 / 2) / √(k + 1) ≤ Z) (hmult : 102 / 100 * (a0 * exp (kappa - 11 / 100)) * Z ≤ M * exp (k * cos (2 * nu))) :
    2 * π * (a0 * exp kappa / M) ≤ 160 * exp (-(2 / 5 * kappa * sin nu ^ 2)) := by
  have hs0 : 0 < √(k + 1) := sqrt_pos.2 (by linarith)
  have hs1 : √(k + 1) ≤ 265 / 10 := by
    rw [sqrt_le_left (by norm_num)]
    have : (701 : ℝ) ≤ (265 / 10) ^ 2 := by norm_num
    linarith
  have e1 : exp (11 / 100) ≤ 113 / 100 := by
    have := add_one_le_exp (-(11 / 100) : ℝ)
    rw [exp_neg] at this
    have hp := exp_pos (11 / 100 : ℝ)
    have h2 : (-(11 / 100) + 1) * exp (11 / 100) ≤ 1 := by
      calc (-(11 / 100) + 1) * exp (11 / 100) ≤ (exp (11 / 100))⁻¹ * exp (11 / 100) := by gcongr
        _ = 1 := inv_mul_cancel₀ hp.ne'
    linarith
  have e2 : exp (1 / 2) ≤ 165 / 100 := by
    have h1 : exp (1 / 2) ^ 2 = exp 1 := by rw [← exp_nat_mul]; norm_num
    have h2 := exp_one_lt_d9
    nlinarith [exp_pos (1 / 2 : ℝ)]
  have e3 : exp (k * cos (2 * nu)) ≤ exp k * exp (-(2 / 5 * kappa * sin nu ^ 2)) := by
    rw [← exp_add]
    refine exp_le_exp.2 ?_
    have hc2 : cos (2 * nu) = 1 - 2 * sin nu ^ 2 := by rw [cos_two_mul, cos_sq']; ring
    rw [hc2]
    have := mul_le_mul_of_nonneg_right hkenv (sq_nonneg (sin nu))
    linarith
  obtain ⟨E, hE⟩ : ∃ E, E = exp (-(2 / 5 * kappa * sin nu ^ 2)) := ⟨_, rfl⟩
  rw [← hE] at e3 ⊢
  have hE0 : 0 < E := by rw [hE]; exact exp_pos _
  rw [← mul_div_assoc, div_le_iff₀ hM0]
  have hMge : 102 / 100 * (a0 * exp (kappa - 11 / 100)) * (2 * exp (k - 1 / 2) / √(k + 1)) ≤ M * (exp k * E) := by
    refine le_trans ?_ (hmult.trans (mul_le_mul_of_nonneg_left e3 hM0.le))
    gcongr
  have x1 : exp (kappa - 11 / 100) = exp kappa / exp (11 / 100) := exp_sub _ _
  have x2 : exp (k - 1 / 2) = exp k / exp (1 / 2) := exp_sub _ _
  rw [x1, x2] at hMge
  have hek := exp_pos k
  have heκ := exp_pos kappa
  have he11 := exp_pos (11 / 100 : ℝ)
  have he12 := exp_pos (1 / 2 : ℝ)
  have x3 : 102 / 100 * (a0 * (exp kappa / exp (11 / 100))) * (2 * (exp k / exp (1 / 2)) / √(k + 1))
      = exp k * (204 / 100 * (a0 * exp kappa) / (exp (11 / 100) * exp (1 / 2) * √(k + 1))) := by field_simp; ring
  rw [x3, show M * (exp k * E) = exp k * (M * E) by ring] at hMge
  have hMge' := le_of_mul_le_mul_left hMge hek
  rw [div_le_iff₀ (by positivity)] at hMge'
  have x4 : exp (11 / 100) * exp (1 / 2) * √(k + 1) ≤ 113 / 100 * (165 / 100) * (265 / 10) := by gcongr
  have x5 : 204 / 100 * (a0 * exp kappa) ≤ M * E * (113 / 100 * (165 / 100) * (265 / 10)) :=
    hMge'.trans (mul_le_mul_of_nonneg_left x4 (by positivity))
  have hpi4 := pi_lt_d4
  have hME : 0 < M * E := by positivity
  calc 2 * π * (a0 * exp kappa) ≤ 2 * 3.1416 * (a0 * exp kappa) := by gcongr
    _ ≤ 160 * E * M := by nlinarith

/-- **C108.** The sampler of the inverse Batschelet distribution takes the concentration of its von Mises proposals from
the curvature of the density at the location and centres them there, while the peak is at `xi - 2 nu`. So it rejects nearly
all proposals when the distribution is skewed and concentrated: for `lmbd = 0`, `0 < nu ≤ 1/2` and `kappa ≤ 340`, after any
history of calls, the average over the proposals of the share `a p` of uniform draws with which the proposal `p` is accepted
is at most `160 exp(-(2/5) kappa sin² nu)`. -/
theorem C108_invbat_acceptance (solve : (ℝ → ℝ) → Option ℝ) (hs : FindsRoots solve) (guess : ℝ → ℝ) (calls : List InvBatCall)
    (hcalls : ∀ call ∈ calls, RegularCall call) (xi kappa nu : ℝ) (h : InvBatRegular xi kappa nu 0) (hk : kappa ≤ 340)
    (hn0 : 0 < nu) (hn1 : nu ≤ 1 / 2) :
    let N := invbatGridSize kappa nu 0
    let f := (invbatTable solve (invbatHistory solve guess calls) kappa nu 0).1
    let k := invbatEnvKappa N f
    ∃ a : ℝ → ℝ, Measurable a ∧
      (∀ p, volume.real {u : ℝ | 0 < u ∧ u < 1 ∧ invbatTrial N f xi p u ≠ none} = a p) ∧
      ∫ p in (0 : ℝ)..(2 * π), exp (k * cos (p - xi)) / (2 * π * besselI 0 k) * a p ≤ 160 * exp (-(2 / 5 * kappa * sin nu ^ 2)) := by
  intro N f k
  have hNs : 512 ≤ N := (tabSize_spec _).1
  have hN : 0 < N := by omega
  obtain ⟨a0, c, ha0, hc, -, hfa, hft, -⟩ := invbat_table_facts hs guess hcalls h hk
  have hfa' : ∀ j, f j = a0 * invbatCurve kappa nu 0 (tabGrid N j) := hfa
  have hft' : ∀ j, floatTiny ≤ f j := hft
  have hk0 : 0 ≤ kappa := le_trans (by positivity) h.kappa_mem.1.le
  have hkenv : kappa / 5 ≤ k := envKappa_ge hNs (tabSize_even _) ha0 hk0 hk hn0.le hn1 hft' hfa'
  have hk700 : k ≤ 700 := by
    show invbatEnvKappa N f ≤ 700
    unfold invbatEnvKappa clip invbatUpper
    exact min_le_right _ _
  have hkn : 0 ≤ k := le_trans (by positivity) hkenv
  have hT0 : 0 < floatTiny := by unfold floatTiny; positivity
  have hI := besselI_zero_pos k
  have hpi := pi_pos
  have hM0 := exp_pos (invbatLogMultiplier N f)
  obtain ⟨Z, hZ⟩ : ∃ Z, Z = 2 * π * besselI 0 k := ⟨_, rfl⟩
  have hZ0 : 0 < Z := by rw [hZ]; positivity
  obtain ⟨j, hjN, hcosj, hfj⟩ := peak_node hNs ha0 hk0 hk hn0 hn1 hfa'
  -- the multiplier
  obtain ⟨M, hM⟩ : ∃ M, M = exp (invbatLogMultiplier N f) := ⟨_, rfl⟩
  rw [← hM] at hM0
  have hmult : 102 / 100 * (a0 * exp (kappa - 11 / 100)) * Z ≤ M * exp (k * cos (2 * nu)) := by
    have h1 := mult_node hft' hjN
    rw [← hM] at h1
    change 102 / 100 * f j ≤ M * (exp (k * cos (tabGrid N j)) / (2 * π * besselI 0 k)) at h1
    rw [← hZ, ← mul_div_assoc, le_div_iff₀ hZ0] at h1
    have h2 : exp (k * cos (tabGrid N j)) ≤ exp (k * cos (2 * nu)) := exp_le_exp.2 (mul_le_mul_of_nonneg_left hcosj hkn)
    calc 102 / 100 * (a0 * exp (kappa - 11 / 100)) * Z ≤ 102 / 100 * f j * Z := by gcongr
      _ ≤ _ := h1
      _ ≤ _ := by gcongr
  obtain ⟨D, hD⟩ : ∃ D : ℝ → ℝ, D = fun p => pchip N (tabGrid N) f (tabRel p xi) := ⟨_, rfl⟩
  have hDb : ∀ p, 0 < D p ∧ D p ≤ a0 * exp kappa := fun p => by
    obtain ⟨m0, m1⟩ := tabRel_mem p xi
    obtain ⟨g0, g1⟩ := grid_icc hN m0 m1.le
    obtain ⟨i, -, -, -, hlow, hup⟩ := pchip_between (tabGrid_increasing hN) f hN g0 g1
    rw [hD]
    refine ⟨hT0.trans_le ((le_min (hft' _) (hft' _)).trans hlow), hup.trans ?_⟩
    have : ∀ j, f j ≤ a0 * exp kappa := fun j => by
      rw [hfa']; exact mul_le_mul_of_nonneg_left (invbatG_le hk0 _ _ _) ha0.le
    exact max_le (this _) (this _)
  have hDm : Measurable D := by rw [hD]; exact (pchip_measurable _ _ _).comp (tabRel_measurable xi)
  obtain ⟨env, henv⟩ : ∃ env : ℝ → ℝ, env = fun p => exp (k * cos (p - xi)) / (2 * π * besselI 0 k) := ⟨_, rfl⟩
  have henvc : Continuous env := by rw [henv]; fun_prop
  have henvp : ∀ p, 0 < env p := fun p => by rw [henv]; positivity
  obtain ⟨a, ha⟩ : ∃ a : ℝ → ℝ, a = fun p => min 1 (D p / (M * env p)) := ⟨_, rfl⟩
  have ham : Measurable a := by
    rw [ha]
    exact measurable_const.min (hDm.div (henvc.measurable.const_mul _))
  refine ⟨a, ham, fun p => ?_, ?_⟩
  · rw [trial_share hN hft', ha, hD, henv, hM]
  have hle : ∀ p, env p * a p ≤ a0 * exp kappa / M := fun p => by
    have he := henvp p
    calc env p * a p ≤ env p * (D p / (M * env p)) := by
          rw [ha]; exact mul_le_mul_of_nonneg_left (min_le_right _ _) he.le
      _ = D p / M := by field_simp
      _ ≤ _ := div_le_div_of_nonneg_right (hDb p).2 hM0.le
  have hge : ∀ p, 0 ≤ env p * a p := fun p => by
    have he := henvp p
    refine mul_nonneg he.le ?_
    rw [ha]
    have := (hDb p).1
    exact le_min zero_le_one (by positivity)
  have hai : IntervalIntegrable (fun p => env p * a p) volume 0 (2 * π) :=
    bdd_int (henvc.measurable.mul ham) (B := a0 * exp kappa / M) (fun p => by
      show |env p * a p| ≤ _
      rw [abs_of_nonneg (hge p)]; exact hle p) _ _
  have hint := intervalIntegral.integral_mono_on two_pi_pos.le hai (intervalIntegrable_const (c := a0 * exp kappa / M)) fun p _ => hle p
  rw [intervalIntegral.integral_const, smul_eq_mul, sub_zero] at hint
  have hgoal : ∫ p in (0 : ℝ)..(2 * π), exp (k * cos (p - xi)) / (2 * π * besselI 0 k) * a p = ∫ p in (0 : ℝ)..(2 * π), env p * a p := by
    rw [henv]
  rw [hgoal]
  refine hint.trans ?_
  exact accept_numbers hkn hk700 hkenv ha0 hM0 (by rw [hZ]; exact bessel_lower hkn) hmult

/-- C108 for `kappa = 300`, `nu = 1/2` on an object used before for another skewness: fewer than one proposal in a billion
is accepted on average. -/
example (solve : (ℝ → ℝ) → Option ℝ) (hs : FindsRoots solve) :
    let f := (invbatTable solve (invbatHistory solve id [.cdf 1 ⟨1, 300, -1 / 2, 0⟩]) 300 (1 / 2) 0).1
    let k := invbatEnvKappa (invbatGridSize 300 (1 / 2) 0) f
    ∃ a : ℝ → ℝ, Measurable a ∧
      (∀ p, volume.real {u : ℝ | 0 < u ∧ u < 1 ∧ invbatTrial (invbatGridSize 300 (1 / 2) 0) f 1 p u ≠ none} = a p) ∧
      ∫ p in (0 : ℝ)..(2 * π), exp (k * cos (p - 1)) / (2 * π * besselI 0 k) * a p ≤ 1 / 10 ^ 9 := by
  intro f k
  have hreg : InvBatRegular 1 300 (1 / 2) 0 := by
    refine ⟨⟨by norm_num, by linarith [pi_gt_three]⟩, ⟨by norm_num, by norm_num⟩, ?_, Or.inr ?_, by norm_num, Or.inr (by norm_num), Or.inr (by norm_num)⟩
    · rw [abs_of_pos] <;> norm_num
    · rw [abs_of_pos] <;> norm_num
  obtain ⟨a, h1, h2, h3⟩ := C108_invbat_acceptance solve hs id [.cdf 1 ⟨1, 300, -1 / 2, 0⟩] (by
    intro call hc
    rw [List.mem_singleton] at hc
    subst hc
    right
    show (1 : ℝ) / 10 ^ 12 < |-1 / 2|
    rw [abs_of_neg] <;> norm_num) 1 300 (1 / 2) hreg (by norm_num) (by norm_num) (by norm_num)
  refine ⟨a, h1, h2, h3.trans ?_⟩
  have hsin : 468 / 1000 ≤ sin (1 / 2) := by
    have := sin_gt_sub_cube (x := 1 / 2) (by norm_num)
    norm_num at this
    linarith
  have hsq : (468 / 1000 : ℝ) ^ 2 ≤ sin (1 / 2) ^ 2 := pow_le_pow_left₀ (by norm_num) hsin 2
  have h26 : exp (-(2 / 5 * 300 * sin (1 / 2) ^ 2)) ≤ exp (-26) := by
    refine exp_le_exp.2 ?_
    norm_num at hsq
    linarith
  have e26 : (160 : ℝ) * 10 ^ 9 ≤ exp 26 := by
    have e : exp 26 = exp 1 ^ 26 := by rw [← exp_nat_mul]; norm_num
    rw [e]
    refine le_trans ?_ (pow_le_pow_left₀ (by norm_num) (show (2.718 : ℝ) ≤ exp 1 by linarith [exp_one_gt_d9]) 26)
    norm_num
  rw [exp_neg 26] at h26
  have : (exp 26)⁻¹ ≤ (160 * 10 ^ 9)⁻¹ := inv_anti₀ (by norm_num) e26
  calc 160 * exp (-(2 / 5 * 300 * sin (1 / 2) ^ 2)) ≤ 160 * (160 * 10 ^ 9)⁻¹ := by linarith
    _ = 1 / 10 ^ 9 := by norm_num

/-- C102 for a distribution that is not skewed to one side, on a fresh object. -/
example (solve : (ℝ → ℝ) → Option ℝ) (hs : FindsRoots solve) :
    ∃ a : ℝ → ℝ, Measurable a ∧ ∀ p, volume.real {u : ℝ | 0 < u ∧ u < 1 ∧ invbatTrial (invbatGridSize 5 0 (1 / 2))
      (invbatTable solve .empty 5 0 (1 / 2)).1 1 p u ≠ none} = a p := by
  obtain ⟨-, a, M, -, h1, h2, -⟩ := C102_invbat solve hs id [] (by simp) 1 5 0 (1 / 2)
    ⟨⟨by norm_num, by linarith [pi_gt_three]⟩, ⟨by norm_num, by norm_num⟩, by norm_num, Or.inl rfl,
      abs_le.2 ⟨by norm_num, by norm_num⟩, Or.inr (by norm_num), Or.inr (by norm_num)⟩ (by norm_num)
  exact ⟨a, h1, h2⟩

end Verif
