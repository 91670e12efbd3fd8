import Verif.Props.DistInvBat
import Verif.Lemmas.FlatFloor
import Verif.Lemmas.Unimodal

/-! # C84: the density depends on what was computed before -/

set_option autoImplicit false

namespace Verif

open Real MeasureTheory Spec

private lemma grid_witness : invbatGridSize 700 0 1 = 1024 := by
  have hs : √((700 : ℝ) + 1) ≤ 27 := by rw [sqrt_le_left (by norm_num)]; norm_num
  have hs2 : 26 ≤ √((700 : ℝ) + 1) := le_sqrt_of_sq_le (by norm_num)
  unfold invbatGridSize tabSize
  rw [abs_zero, abs_one]
  obtain ⟨t, ht⟩ : ∃ t, t = 64 + 12 * ((1 + 3 / 4 * 1) * (1 + 0) * √((700 : ℝ) + 1)) := ⟨_, rfl⟩
  have ht' : t = 64 + 21 * √((700 : ℝ) + 1) := by rw [ht]; ring
  have h0 : 512 < t := by rw [ht']; linarith
  have h1 : t ≤ 1024 := by rw [ht']; linarith
  have hc : clip t 512 8192 = t := by unfold clip; rw [max_eq_left h0.le, min_eq_left (by linarith)]
  rw [← ht, hc]
  have hl : ⌈logb 2 t⌉₊ = 10 := by
    rw [Nat.ceil_eq_iff (by norm_num)]
    constructor
    · rw [lt_logb_iff_rpow_lt (by norm_num) (by linarith)]
      norm_num
      exact h0
    · rw [logb_le_iff_le_rpow (by norm_num) (by linarith)]
      norm_num
      exact h1
  simp only [hl]
  norm_num

private lemma mul_exp_neg_le (v : ℝ) : v * exp (-v) ≤ 37 / 100 := by
  have h := add_one_le_exp (v - 1)
  have h2 : v ≤ exp (v - 1) := by linarith
  have h3 : v * exp (-v) ≤ exp (v - 1) * exp (-v) := mul_le_mul_of_nonneg_right h2 (exp_pos _).le
  rw [← exp_add, show v - 1 + -v = -1 by ring] at h3
  refine h3.trans ?_
  have := exp_one_gt_d9
  rw [exp_neg, inv_eq_one_div, div_le_iff₀ (exp_pos _)]
  linarith

private lemma mass_small : invbatMass 700 1 ≤ exp 700 * (37 / 70000 * (2 * π)) := by
  unfold invbatMass
  have hc := invbatShape_continuous 700 1
  have h := intervalIntegral.integral_mono_on (μ := volume) (a := -π) (b := π) (by linarith [pi_pos])
    (Continuous.intervalIntegrable (by fun_prop : Continuous fun u => invbatShape 700 1 u * (1 - (1 + 1) / 2 * cos u)) _ _)
    ((continuous_const (y := exp 700 * (37 / 70000))).intervalIntegrable _ _) fun u _ => ?_
  · rw [intervalIntegral.integral_const, smul_eq_mul] at h
    refine h.trans (le_of_eq (by ring))
  · have hv := mul_exp_neg_le (700 * (1 - cos u))
    unfold invbatShape
    have e : exp (700 * cos (u - (1 - 1) / 2 * sin u)) = exp 700 * exp (-(700 * (1 - cos u))) := by
      rw [← exp_add]
      congr 1
      rw [show u - (1 - 1) / 2 * sin u = u by ring]; ring
    rw [e]
    have hE := exp_pos (700 : ℝ)
    have : exp 700 * exp (-(700 * (1 - cos u))) * (1 - (1 + 1) / 2 * cos u)
        = exp 700 * (700 * (1 - cos u) * exp (-(700 * (1 - cos u))) / 700) := by ring
    rw [this]
    refine mul_le_mul_of_nonneg_left ?_ hE.le
    linarith

private lemma trap_node {N : ℕ} {f : ℕ → ℝ} (hf : ∀ j, 0 ≤ f j) {k : ℕ} (hk : k + 2 ≤ N) : 2 * π / N * f (k + 1) ≤ tabTrap N f N := by
  refine le_trans ?_ (tabTrap_mono' hf hk)
  have hp := pi_pos
  have h0 : 0 ≤ tabTrap N f k := by
    have := tabTrap_mono' (N := N) hf (Nat.zero_le k)
    rwa [tabTrap_zero] at this
  unfold tabTrap at h0 ⊢
  rw [Finset.sum_range_succ, Finset.sum_range_succ]
  have h1 : 0 ≤ 2 * π / N := by positivity
  nlinarith [mul_nonneg h1 (hf k), mul_nonneg h1 (hf (k + 2))]

/-- The tabulated density of `kappa = 700, nu = 0, lmbd = 1` has far too much mass. -/
private lemma mass_witness {solve : (ℝ → ℝ) → Option ℝ} (hs : FindsRoots solve) :
    9 / 5 ≤ tabTrap 1024 (invbatRaw solve 700 0 1 1024 (1 / invbatMass 700 1)) 1024 := by
  have hM := invbatMass_pos (kappa := 700) (by norm_num) (lmbd := 1) (by norm_num)
  obtain ⟨N, hN⟩ : ∃ N, N = 1024 := ⟨_, rfl⟩
  have hpi := pi_pos
  have hnode : 700 / (37 / 100 * (2 * π)) ≤ invbatRaw solve 700 0 1 1024 (1 / invbatMass 700 1) 512 := by
    unfold invbatRaw
    have hg : tabGrid 1024 512 = 0 := by unfold tabGrid; push_cast; ring
    have hker := invbatLogKernel_eq hs (atol := 1 / 10 ^ 12) (by positivity) (by norm_num) 700 (nu := 0) (lmbd := 1) (by norm_num)
      (Or.inl rfl) (by norm_num) (Or.inr (by norm_num)) (tabGrid 1024 512) 0
    have hG : invbatG 700 0 1 0 = exp 700 := by
      have e : invbatU 0 1 0 = 0 := by
        refine (invbatAngle_strictMono (nu := 0) (lmbd := 1) (by norm_num) (by norm_num)).injective ?_
        rw [invbatAngle_U (by norm_num) (by norm_num)]
        unfold invbatAngle; simp
      unfold invbatG invbatShape
      rw [e]; simp
    rw [hg, sub_zero, hG] at hker
    rw [hg, exp_eq_exp.1 hker]
    have hv : 700 / (37 / 100 * (2 * π)) ≤ exp 700 / invbatMass 700 1 := by
      rw [div_le_div_iff₀ (by positivity) hM]
      have := mass_small
      calc 700 * invbatMass 700 1 ≤ 700 * (exp 700 * (37 / 70000 * (2 * π))) := by linarith
        _ = exp 700 * (37 / 100 * (2 * π)) := by ring
    have hlog : log (700 / (37 / 100 * (2 * π))) ≤ log (1 / invbatMass 700 1) + 700 := by
      have e : log (1 / invbatMass 700 1) + 700 = log (exp 700 / invbatMass 700 1) := by
        rw [log_div (exp_pos _).ne' hM.ne', log_exp, one_div, log_inv]; ring
      rw [e]
      exact log_le_log (by positivity) hv
    have hlog2 : log (700 / (37 / 100 * (2 * π))) ≤ 700 := by
      have h1 : 700 / (37 / 100 * (2 * π)) ≤ 700 := by
        rw [div_le_iff₀ (by positivity)]
        nlinarith [pi_gt_three]
      refine (log_le_sub_one_of_pos (by positivity)).trans (by linarith)
    calc 700 / (37 / 100 * (2 * π)) = exp (log (700 / (37 / 100 * (2 * π)))) := (exp_log (by positivity)).symm
      _ ≤ _ := by
        refine exp_le_exp.2 ?_
        unfold clip
        exact le_min (hlog.trans (le_max_left _ _)) hlog2
  have ht := trap_node (N := 1024) (f := invbatRaw solve 700 0 1 1024 (1 / invbatMass 700 1)) (fun j => (exp_pos _).le) (k := 511) (by norm_num)
  refine le_trans ?_ ht
  have h2 : 2 * π / ((1024 : ℕ) : ℝ) * (700 / (37 / 100 * (2 * π))) ≤ 2 * π / ((1024 : ℕ) : ℝ) * invbatRaw solve 700 0 1 1024 (1 / invbatMass 700 1) 512 :=
    mul_le_mul_of_nonneg_left hnode (by positivity)
  refine le_trans ?_ h2
  have e : 2 * π / ((1024 : ℕ) : ℝ) * (700 / (37 / 100 * (2 * π))) = 700 / (37 / 100 * 1024) := by
    push_cast; field_simp
  rw [e]; norm_num

/-- **C84.** A call of `cdf` with `kappa = 700, nu = 0, lmbd = 1` changes later answers of `pdf` for the same `kappa`
and `lmbd`, at every angle and for every `xi` and `nu`: they drop to at most 5/9 of what a fresh object answers.
Clearing the cache restores them. -/
theorem C84_history (solve : (ℝ → ℝ) → Option ℝ) (hs : FindsRoots solve) (guess : ℝ → ℝ) (xi' y : ℝ) (hxi : 0 ≤ xi' ∧ xi' ≤ 2 * π)
    (hy : RegularAngle y) (hy0 : 0 < y) (hy1 : y < 2 * π) (xi nu x : ℝ) (h : InvBatRegular xi 700 nu 1) :
    ∃ v w, 0 < w ∧ w ≤ 5 / 9 * v ∧
      (invbatPdfMethod solve (invbatHistory solve guess []) x ⟨xi, 700, nu, 1⟩).1 = some v ∧
      (invbatPdfMethod solve (invbatHistory solve guess [.cdf y ⟨xi', 700, 0, 1⟩]) x ⟨xi, 700, nu, 1⟩).1 = some w ∧
      (invbatPdfMethod solve (invbatHistory solve guess [.cdf y ⟨xi', 700, 0, 1⟩, .clear]) x ⟨xi, 700, nu, 1⟩).1 = some v := by
  have hM := invbatMass_pos (kappa := 700) (by norm_num) (lmbd := 1) (by norm_num)
  have hC : invbatC 700 1 = some (1 / invbatMass 700 1) := invbatC_one (by norm_num) le_rfl
  obtain ⟨c, hc⟩ : ∃ c, c = 1 / invbatMass 700 1 := ⟨_, rfl⟩
  have hc0 : 0 < c := by rw [hc]; positivity
  rw [← hc] at hC
  obtain ⟨m, hm⟩ : ∃ m, m = tabTrap 1024 (invbatRaw solve 700 0 1 1024 c) 1024 := ⟨_, rfl⟩
  have hm1 : 9 / 5 ≤ m := by rw [hm, hc]; exact mass_witness hs
  have hm0 : 0 < m := by linarith
  have hfresh : (invbatCached .empty 700 1).1 = some c := by
    unfold invbatCached; simp only [InvBatState.empty, hC]
  -- the state after the call
  have hbuild : (invbatBuild solve .empty 700 0 1 1024).2.norms 700 1 = some (some (c / m)) := by
    unfold invbatBuild
    have e1 : invbatCached .empty 700 1 = (some c, InvBatState.empty.store 700 1 (some c)) := by
      unfold invbatCached; simp only [InvBatState.empty, hC]
    simp only [e1]
    rw [if_neg (not_le.2 hc0)]
    simp only
    rw [← hm, if_neg (not_le.2 hm0), if_pos (by rw [abs_of_pos (by linarith)]; norm_num; linarith)]
    unfold InvBatState.store
    simp only [and_self, if_true]
    rw [exp_add, exp_log hc0, exp_log (by positivity), mul_one_div]
  have hstate : (invbatHistory solve guess [.cdf y ⟨xi', 700, 0, 1⟩]).norms 700 1 = some (some (c / m)) := by
    unfold invbatHistory
    simp only [List.foldl_cons, List.foldl_nil, InvBatCall.run]
    unfold invbatCdfMethod
    simp only [invbat_clip (show (0 : ℝ) ≤ 700 by norm_num) le_rfl]
    unfold invbatCdfScipy
    rw [if_neg (not_not.2 (show invbatArgcheck _ from ⟨hxi.1, hxi.2, by norm_num, by norm_num, by norm_num, by norm_num, by norm_num⟩)),
      regular_wrap hy, if_neg (not_le.2 hy1), if_pos hy0]
    simp only
    unfold invbatCdf
    simp only [invbat_clip (show (0 : ℝ) ≤ 700 by norm_num) le_rfl]
    rw [if_neg (by unfold invbatTol; norm_num)]
    simp only
    unfold invbatTable
    simp only [grid_witness, InvBatState.empty]
    exact hbuild
  obtain ⟨⟨x0, x1⟩, ⟨k0, k1⟩, n0, n1, l0, l1, l2⟩ := h
  obtain ⟨G, hG⟩ : ∃ G, G = invbatG 700 nu 1 (wrap2pi x - xi) := ⟨_, rfl⟩
  have hG0 : 0 < G := by rw [hG]; exact invbatG_pos _ _ _ _
  refine ⟨c * G, c / m * G, by positivity, ?_, ?_, ?_, ?_⟩
  · have : c / m * G = c * G / m := by ring
    rw [this, div_le_iff₀ hm0]
    have := mul_pos hc0 hG0
    nlinarith
  · rw [hG]
    exact invbatPdfMethod_eq hs _ x0 x1 k0 k1 n0 n1 l0 l1 hc0 hfresh x
  · rw [hG]
    refine invbatPdfMethod_eq hs _ x0 x1 k0 k1 n0 n1 l0 l1 (by positivity) ?_ x
    unfold invbatCached
    rw [hstate]
  · rw [hG]
    exact invbatPdfMethod_eq hs _ x0 x1 k0 k1 n0 n1 l0 l1 hc0 hfresh x

/-- **C84.** After any history of calls, densities with the same `kappa` and `lmbd` differ from those of a fresh object by
one and the same positive factor, whatever the angle, direction and `nu`. -/
theorem C84_one_factor (solve : (ℝ → ℝ) → Option ℝ) (hs : FindsRoots solve) (guess : ℝ → ℝ) (calls : List InvBatCall) (kappa lmbd : ℝ)
    (hk0 : 1 / 10 ^ 9 < kappa) (hk1 : kappa ≤ 700) (hl : |lmbd| ≤ 1) (hl0 : lmbd = -1 ∨ -1 + 11 / 10 ^ 6 < lmbd)
    (hl1 : lmbd = 1 ∨ lmbd < 1 - 11 / 10 ^ 6) :
    ∃ a, 0 < a ∧ ∀ xi nu x, 0 ≤ xi → xi ≤ 2 * π → |nu| ≤ 1 → (nu = 0 ∨ 1 / 10 ^ 12 < |nu|) →
      ∃ v, 0 < v ∧ (invbatPdfMethod solve .empty x ⟨xi, kappa, nu, lmbd⟩).1 = some v ∧
        (invbatPdfMethod solve (invbatHistory solve guess calls) x ⟨xi, kappa, nu, lmbd⟩).1 = some (a * v) := by
  obtain ⟨c0, hc0, hp, -⟩ := invbatC_spec hk0 hk1 hl hl0 hl1
  obtain ⟨c, hP, hc⟩ := invbatHistory_invariant solve guess kappa lmbd (fun c => 0 < c) hc0 hp calls (by
    intro call _ nu _ st c hc hc0
    obtain e | ⟨h1, e⟩ := invbatBuild_norms solve st nu (invbatGridSize kappa nu lmbd) hc hc0
    · exact ⟨c, hc0, e⟩
    · exact ⟨_, by positivity, e⟩)
  refine ⟨c / c0, by positivity, fun xi nu x x0 x1 n0 n1 => ?_⟩
  have hG := invbatG_pos kappa nu lmbd (wrap2pi x - xi)
  refine ⟨c0 * invbatG kappa nu lmbd (wrap2pi x - xi), by positivity, ?_, ?_⟩
  · exact invbatPdfMethod_eq hs _ x0 x1 hk0 hk1 n0 n1 hl hl0 hp ((invbatCached_empty kappa lmbd).trans hc0) x
  · rw [show c / c0 * (c0 * invbatG kappa nu lmbd (wrap2pi x - xi)) = c * invbatG kappa nu lmbd (wrap2pi x - xi) by field_simp]
    exact invbatPdfMethod_eq hs _ x0 x1 hk0 hk1 n0 n1 hl hl0 hP hc x

/-- **C84.** Histories without `cdf`, `ppf`, `rvs` or `fit` tables for the same `kappa` and `lmbd` (density evaluations, any
call with other parameters) leave the density as it is. -/
theorem C84_unaffected (solve : (ℝ → ℝ) → Option ℝ) (hs : FindsRoots solve) (guess : ℝ → ℝ) (calls : List InvBatCall)
    (xi kappa nu lmbd : ℝ) (h : InvBatRegular xi kappa nu lmbd) (x : ℝ)
    (hcalls : ∀ call ∈ calls, match call with
      | .pdf _ _ => True
      | .clear => True
      | .cdf _ s => clip s.kappa 0 700 ≠ kappa ∨ s.lmbd ≠ lmbd
      | .ppf _ s => clip s.kappa 0 700 ≠ kappa ∨ s.lmbd ≠ lmbd
      | .table k _ l => clip k 0 700 ≠ kappa ∨ l ≠ lmbd) :
    (invbatPdfMethod solve (invbatHistory solve guess calls) x ⟨xi, kappa, nu, lmbd⟩).1
      = (invbatPdfMethod solve .empty x ⟨xi, kappa, nu, lmbd⟩).1 := by
  obtain ⟨⟨x0, x1⟩, ⟨k0, k1⟩, n0, n1, l0, l1, l2⟩ := h
  obtain ⟨c0, hc0, hp, -⟩ := invbatC_spec k0 k1 l0 l1 l2
  obtain ⟨c, hP, hc⟩ := invbatHistory_invariant solve guess kappa lmbd (fun c => c = c0) hc0 rfl calls (by
    intro call hm nu ht st c hc hc0
    exfalso
    have h1 := hcalls call hm
    cases call with
    | pdf => exact ht
    | clear => exact ht
    | cdf x s => exact h1.elim (fun h => h ht.2.1) fun h => h ht.2.2.2
    | ppf x s => exact h1.elim (fun h => h ht.2.1) fun h => h ht.2.2.2
    | table k n l => exact h1.elim (fun h => h ht.1) fun h => h ht.2.2)
  subst hP
  rw [invbatPdfMethod_eq hs _ x0 x1 k0 k1 n0 n1 l0 l1 hp hc x,
    invbatPdfMethod_eq hs _ x0 x1 k0 k1 n0 n1 l0 l1 hp ((invbatCached_empty kappa lmbd).trans hc0) x]

lemma invbat_exp_bounds {kappa : ℝ} (hk : 0 ≤ kappa) {lmbd : ℝ} (hl : |lmbd| ≤ 1) :
    2 * π * exp (-kappa) ≤ invbatMass kappa lmbd ∧ invbatMass kappa lmbd ≤ 2 * π * exp kappa := by
  have hn : |(0 : ℝ)| ≤ 1 := by rw [abs_zero]; norm_num
  rw [← invbatG_integral kappa hn hl]
  have hc := invbatG_continuous kappa hn hl
  have h1 := intervalIntegral.integral_mono_on (μ := volume) (by linarith [pi_pos] : -π ≤ π)
    ((continuous_const (y := exp (-kappa))).intervalIntegrable _ _) (hc.intervalIntegrable (-π) π) fun t _ => invbatG_ge hk 0 lmbd t
  have h2 := intervalIntegral.integral_mono_on (μ := volume) (by linarith [pi_pos] : -π ≤ π)
    (hc.intervalIntegrable (-π) π) ((continuous_const (y := exp kappa)).intervalIntegrable _ _) fun t _ => invbatG_le hk 0 lmbd t
  rw [intervalIntegral.integral_const, smul_eq_mul] at h1 h2
  constructor <;> linarith

lemma tabTrap_const {N : ℕ} (hN : 0 < N) (v : ℝ) : tabTrap N (fun _ => v) N = 2 * π * v := by
  unfold tabTrap
  rw [Finset.sum_const, Finset.card_range, nsmul_eq_mul]
  field_simp
  ring

lemma invbat_trap_bounds {kappa : ℝ} (hk : 0 ≤ kappa) (nu lmbd : ℝ) {N : ℕ} (hN : 0 < N) :
    2 * π * exp (-kappa) ≤ tabTrap N (fun j => invbatG kappa nu lmbd (tabGrid N j)) N ∧
    tabTrap N (fun j => invbatG kappa nu lmbd (tabGrid N j)) N ≤ 2 * π * exp kappa := by
  constructor
  · rw [← tabTrap_const hN]
    exact tabTrap_le_of_le (fun j => invbatG_ge hk nu lmbd _) N
  · rw [← tabTrap_const hN]
    exact tabTrap_le_of_le (fun j => invbatG_le hk nu lmbd _) N

/-- The table without the limits on logarithms. -/
lemma invbat_raw_eq {solve : (ℝ → ℝ) → Option ℝ} (hs : FindsRoots solve) {kappa nu lmbd : ℝ} (hk : 0 ≤ kappa) (hk1 : kappa ≤ 340)
    (hn : |nu| ≤ 1) (hn0 : nu = 0 ∨ 1 / 10 ^ 12 < |nu|) (hl : |lmbd| ≤ 1) (hl0 : lmbd = -1 ∨ -1 + 11 / 10 ^ 6 < lmbd) (N : ℕ) {c : ℝ}
    (hc0 : exp (-kappa - 3) ≤ c) (hc1 : c ≤ exp (kappa + 3)) (j : ℕ) :
    invbatRaw solve kappa nu lmbd N c j = c * invbatG kappa nu lmbd (tabGrid N j) := by
  have hcp : 0 < c := (exp_pos _).trans_le hc0
  have hker := invbatLogKernel_eq hs (atol := 1 / 10 ^ 12) (by positivity) (by norm_num) kappa hn hn0 hl hl0 (tabGrid N j) 0
  rw [sub_zero] at hker
  have g0 := invbatG_ge hk nu lmbd (tabGrid N j)
  have g1 := invbatG_le hk nu lmbd (tabGrid N j)
  rw [← hker] at g0 g1
  rw [exp_le_exp] at g0 g1
  have l0 := log_le_log (exp_pos _) hc0
  have l1 := log_le_log hcp hc1
  rw [log_exp] at l0 l1
  unfold invbatRaw clip
  rw [max_eq_left (by linarith), min_eq_left (by linarith), exp_add, exp_log hcp, hker]

lemma invbat_inv_bounds {kappa t c : ℝ} (h0 : 2 * π * exp (-kappa) ≤ t) (h1 : t ≤ 2 * π * exp kappa) (hc : |c * t - 1| ≤ 1 / 10 ^ 11) :
    exp (-kappa - 3) ≤ c ∧ c ≤ exp (kappa + 3) := by
  have hpi := pi_gt_three
  have hpi2 := pi_lt_d2
  have ht : 0 < t := lt_of_lt_of_le (by positivity) h0
  have hc := abs_le.1 hc
  have e3 : (8 : ℝ) ≤ exp 3 := by
    have h := add_one_le_exp (1 : ℝ)
    have : exp 3 = exp 1 ^ 3 := by rw [← exp_nat_mul]; norm_num
    rw [this]
    calc (8 : ℝ) = 2 ^ 3 := by norm_num
      _ ≤ exp 1 ^ 3 := by gcongr; linarith
  have hE : exp (-kappa - 3) = exp (-kappa) / exp 3 := by rw [exp_sub]
  have hE2 : exp (kappa + 3) = exp kappa * exp 3 := exp_add _ _
  have hinv : exp kappa * exp (-kappa) = 1 := by rw [← exp_add]; simp
  have p1 := exp_pos kappa
  have p2 := exp_pos (-kappa)
  rw [hE, hE2]
  constructor
  · rw [div_le_iff₀ (exp_pos _)]
    by_contra hlt
    push Not at hlt
    have hcpos : 0 < c := by
      by_contra hn; push Not at hn
      nlinarith [mul_nonneg (neg_nonneg.2 hn) ht.le, hc.1]
    have h3 : c * t ≤ c * (2 * π * exp kappa) := mul_le_mul_of_nonneg_left h1 hcpos.le
    have h4 : c * 8 < exp (-kappa) := lt_of_le_of_lt (mul_le_mul_of_nonneg_left e3 hcpos.le) hlt
    have h5 : c * 8 * exp kappa < 1 := by
      have := mul_lt_mul_of_pos_right h4 p1
      linarith
    have h6 : 0 < c * exp kappa := by positivity
    nlinarith [hc.1]
  · by_contra hlt
    push Not at hlt
    have h8 : exp kappa * 8 < c := lt_of_le_of_lt (mul_le_mul_of_nonneg_left e3 p1.le) hlt
    have hcpos : 0 < c := lt_trans (by positivity) h8
    have h3 : c * (2 * π * exp (-kappa)) ≤ c * t := mul_le_mul_of_nonneg_left h0 hcpos.le
    have h5 : 8 < c * exp (-kappa) := by
      have := mul_lt_mul_of_pos_right h8 p2
      nlinarith
    nlinarith [hc.2]

/-- **C84.** How far histories can move the density when `kappa ≤ 340`: by a relative amount of at most `π/128 * p`, where
`p` is the height of the peak. (For `kappa = 700, lmbd = 1` it was 80 percent.) -/
theorem C84_bounded (solve : (ℝ → ℝ) → Option ℝ) (hs : FindsRoots solve) (guess : ℝ → ℝ) (calls : List InvBatCall)
    (xi kappa nu lmbd : ℝ) (h : InvBatRegular xi kappa nu lmbd) (hk : kappa ≤ 340) (x : ℝ)
    (hcalls : ∀ call ∈ calls, match call with
      | .pdf _ _ => True
      | .clear => True
      | .cdf _ s => s.nu = 0 ∨ 1 / 10 ^ 12 < |s.nu|
      | .ppf _ s => s.nu = 0 ∨ 1 / 10 ^ 12 < |s.nu|
      | .table _ n _ => |n| ≤ 1 ∧ (n = 0 ∨ 1 / 10 ^ 12 < |n|)) :
    ∃ v w p, 0 < w ∧ (invbatPdfMethod solve .empty x ⟨xi, kappa, nu, lmbd⟩).1 = some v ∧
      (invbatPdfMethod solve (invbatHistory solve guess calls) x ⟨xi, kappa, nu, lmbd⟩).1 = some w ∧
      (invbatPdfMethod solve .empty 0 ⟨0, kappa, 0, lmbd⟩).1 = some p ∧
      |v - w| ≤ (π / 128 * p + 1 / 10 ^ 11) * w := by
  obtain ⟨⟨x0, x1⟩, ⟨k0, k1⟩, n0, n1, l0, l1, l2⟩ := h
  have hk0 : 0 ≤ kappa := le_trans (by positivity) k0.le
  obtain ⟨c0, hc0, hp, hacc⟩ := invbatC_spec k0 k1 l0 l1 l2
  obtain ⟨m0, m1⟩ := invbat_exp_bounds hk0 l0
  have hM := invbatMass_pos hk0 l0
  obtain ⟨c, hP, hc⟩ := invbatHistory_invariant solve guess kappa lmbd (fun c => c = c0 ∨ ∃ n N, |n| ≤ 1 ∧ 512 ≤ N ∧
      c = 1 / tabTrap N (fun j => invbatG kappa n lmbd (tabGrid N j)) N) hc0 (Or.inl rfl) calls (by
    intro call hm n ht st c hc hP
    have hn : |n| ≤ 1 ∧ (n = 0 ∨ 1 / 10 ^ 12 < |n|) := by
      have h1 := hcalls call hm
      cases call with
      | pdf => exact ht.elim
      | clear => exact ht.elim
      | cdf y s =>
        obtain ⟨⟨-, -, -, a, b, -⟩, -, e, -⟩ := ht
        rw [← e]; exact ⟨abs_le.2 ⟨a, b⟩, h1⟩
      | ppf y s =>
        obtain ⟨⟨-, -, -, a, b, -⟩, -, e, -⟩ := ht
        rw [← e]; exact ⟨abs_le.2 ⟨a, b⟩, h1⟩
      | table k n' l => rw [← ht.2.1]; exact h1
    have hNs : 512 ≤ invbatGridSize kappa n lmbd := (tabSize_spec _).1
    have hcb : exp (-kappa - 3) ≤ c ∧ c ≤ exp (kappa + 3) := by
      obtain rfl | ⟨n', N', h1, h2, rfl⟩ := hP
      · exact invbat_inv_bounds m0 m1 hacc
      · obtain ⟨t0, t1⟩ := invbat_trap_bounds hk0 n' lmbd (show 0 < N' by omega)
        have : 0 < tabTrap N' (fun j => invbatG kappa n' lmbd (tabGrid N' j)) N' := lt_of_lt_of_le (by positivity) t0
        refine invbat_inv_bounds t0 t1 ?_
        rw [one_div_mul_cancel this.ne', sub_self, abs_zero]; positivity
    have hcpos : 0 < c := (exp_pos _).trans_le hcb.1
    obtain e | ⟨hpos, e⟩ := invbatBuild_norms solve st n (invbatGridSize kappa n lmbd) hc hcpos
    · exact ⟨c, hP, e⟩
    · refine ⟨_, Or.inr ⟨n, invbatGridSize kappa n lmbd, hn.1, hNs, ?_⟩, e⟩
      have hraw : invbatRaw solve kappa n lmbd (invbatGridSize kappa n lmbd) c
          = fun j => c * invbatG kappa n lmbd (tabGrid (invbatGridSize kappa n lmbd) j) :=
        funext fun j => invbat_raw_eq hs hk0 hk hn.1 hn.2 l0 l1 _ hcb.1 hcb.2 j
      have hlin : ∀ (N : ℕ) (f : ℕ → ℝ), tabTrap N (fun j => c * f j) N = c * tabTrap N f N := by
        intro N f
        unfold tabTrap
        rw [← mul_assoc, Finset.mul_sum]
        congr 1
        exact Finset.sum_congr rfl fun j _ => by ring
      rw [hraw, hlin]
      field_simp)
  have hG := invbatG_pos kappa nu lmbd (wrap2pi x - xi)
  have hcpos : 0 < c := by
    obtain rfl | ⟨n', N', h1, h2, rfl⟩ := hP
    · exact hp
    · have := (invbat_trap_bounds hk0 n' lmbd (show 0 < N' by omega)).1
      have : 0 < tabTrap N' (fun j => invbatG kappa n' lmbd (tabGrid N' j)) N' := lt_of_lt_of_le (by positivity) this
      positivity
  have hpk : invbatG kappa 0 lmbd 0 = exp kappa := by
    have e : invbatU 0 lmbd 0 = 0 := by
      refine (invbatAngle_strictMono (nu := 0) (by norm_num) l0).injective ?_
      rw [invbatAngle_U (by norm_num) l0]
      unfold invbatAngle; simp
    unfold invbatG invbatShape
    rw [e]; simp
  refine ⟨c0 * invbatG kappa nu lmbd (wrap2pi x - xi), c * invbatG kappa nu lmbd (wrap2pi x - xi), c0 * exp kappa, by positivity, ?_, ?_, ?_, ?_⟩
  · exact invbatPdfMethod_eq hs _ x0 x1 k0 k1 n0 n1 l0 l1 hp ((invbatCached_empty kappa lmbd).trans hc0) x
  · exact invbatPdfMethod_eq hs _ x0 x1 k0 k1 n0 n1 l0 l1 hcpos hc x
  · have h0 : RegularAngle 0 := ⟨le_rfl, Or.inl (by have := wrapTol_lt; linarith [pi_gt_three])⟩
    rw [invbatPdfMethod_eq hs _ le_rfl two_pi_pos.le k0 k1 (by norm_num) (Or.inl rfl) l0 l1 hp ((invbatCached_empty kappa lmbd).trans hc0) 0,
      regular_wrap h0, sub_zero, hpk]
  · have key : |c0 / c - 1| ≤ π / 128 * (c0 * exp kappa) + 1 / 10 ^ 11 := by
      obtain rfl | ⟨n, N, h1, h2, rfl⟩ := hP
      · rw [div_self hp.ne', sub_self, abs_zero]
        positivity
      · have ht := invbatG_trap hk0 h1 l0 (show 0 < N by omega)
        have hN : (512 : ℝ) ≤ N := by exact_mod_cast h2
        have hb : 2 * π / N * (2 * exp kappa) ≤ π / 128 * exp kappa := by
          have : 2 * π / N ≤ 2 * π / 512 := by gcongr
          have := mul_le_mul_of_nonneg_right this (by positivity : 0 ≤ 2 * exp kappa)
          refine this.trans (le_of_eq ?_); ring
        have ht' := ht.trans hb
        rw [div_div_eq_mul_div, div_one]
        have e : c0 * tabTrap N (fun j => invbatG kappa n lmbd (tabGrid N j)) N - 1
          = c0 * (tabTrap N (fun j => invbatG kappa n lmbd (tabGrid N j)) N - invbatMass kappa lmbd) + (c0 * invbatMass kappa lmbd - 1) := by ring
        rw [e]
        refine (abs_add_le _ _).trans (add_le_add ?_ hacc)
        rw [abs_mul, abs_of_pos hp]
        refine (mul_le_mul_of_nonneg_left ht' hp.le).trans (le_of_eq ?_); ring
    have e : c0 * invbatG kappa nu lmbd (wrap2pi x - xi) - c * invbatG kappa nu lmbd (wrap2pi x - xi)
        = (c0 / c - 1) * (c * invbatG kappa nu lmbd (wrap2pi x - xi)) := by field_simp
    rw [e, abs_mul, abs_of_pos (by positivity : 0 < c * invbatG kappa nu lmbd (wrap2pi x - xi))]
    exact mul_le_mul_of_nonneg_right key (by positivity)

/-- Parameters C84 applies to. -/
example : InvBatRegular 1 700 (1 / 2) 1 := by
  refine ⟨⟨by norm_num, by linarith [pi_gt_three]⟩, ⟨by norm_num, by norm_num⟩, ?_, Or.inr ?_, by norm_num, Or.inr (by norm_num), Or.inl rfl⟩
  · rw [abs_of_pos] <;> norm_num
  · rw [abs_of_pos] <;> norm_num

end Verif
