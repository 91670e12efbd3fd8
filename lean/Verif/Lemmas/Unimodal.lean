import Verif.Lemmas.TableError
import Verif.Lemmas.InvBatState

/-! # Trapezoid sums of functions with one peak -/

set_option autoImplicit false

namespace Verif

open Real MeasureTheory Spec

/-- One cell. -/
private lemma cell_error {g : ℝ → ℝ} (hc : Continuous g) {a b lo hi : ℝ} (hab : a ≤ b) (h : ∀ t, a ≤ t → t ≤ b → lo ≤ g t ∧ g t ≤ hi) :
    |1 / 2 * (g a + g b) * (b - a) - ∫ t in a..b, g t| ≤ (b - a) * (hi - lo) := by
  have h1 := intervalIntegral.integral_mono_on (μ := volume) hab ((continuous_const (y := lo)).intervalIntegrable _ _) (hc.intervalIntegrable a b)
    fun t ht => (h t ht.1 ht.2).1
  have h2 := intervalIntegral.integral_mono_on (μ := volume) hab (hc.intervalIntegrable a b) ((continuous_const (y := hi)).intervalIntegrable _ _)
    fun t ht => (h t ht.1 ht.2).2
  rw [intervalIntegral.integral_const, smul_eq_mul] at h1 h2
  have ha := h a le_rfl hab
  have hb := h b hab le_rfl
  have hL : 0 ≤ b - a := by linarith
  rw [abs_le]
  constructor <;> nlinarith [mul_nonneg hL (sub_nonneg.2 ha.1), mul_nonneg hL (sub_nonneg.2 ha.2), mul_nonneg hL (sub_nonneg.2 hb.1), mul_nonneg hL (sub_nonneg.2 hb.2)]

/-- Trapezoid sums of a function that rises up to `m` and falls after it. -/
theorem tabTrap_unimodal {g : ℝ → ℝ} (hc : Continuous g) (hpos : ∀ t, 0 ≤ g t) {m M : ℝ} (hup : MonotoneOn g (Set.Icc (-π) m))
    (hdown : AntitoneOn g (Set.Icc m π)) (hm0 : -π ≤ m) (hM : ∀ t, g t ≤ M) {N : ℕ} (hN : 0 < N) {k : ℕ} (hk : k ≤ N) :
    |tabTrap N (fun j => g (tabGrid N j)) k - ∫ t in (-π)..(tabGrid N k), g t| ≤ 2 * π / N * (2 * M) := by
  obtain ⟨V, hV⟩ : ∃ V : ℝ → ℝ, V = fun t => if t ≤ m then g t else 2 * M - g t := ⟨_, rfl⟩
  have hp : 0 < 2 * π / N := by positivity
  have hgrid : ∀ i, i ≤ N → -π ≤ tabGrid N i ∧ tabGrid N i ≤ π := by
    intro i hi
    unfold tabGrid
    have h1 : (0 : ℝ) ≤ i * (2 * π / N) := by positivity
    have h2 : (i : ℝ) * (2 * π / N) ≤ N * (2 * π / N) := mul_le_mul_of_nonneg_right (by exact_mod_cast hi) hp.le
    rw [mul_div_cancel₀ _ (by positivity : (N : ℝ) ≠ 0)] at h2
    constructor <;> linarith
  have key : ∀ k, k ≤ N → |tabTrap N (fun j => g (tabGrid N j)) k - ∫ t in (-π)..(tabGrid N k), g t|
      ≤ 2 * π / N * (V (tabGrid N k) - V (-π)) := by
    intro k
    induction k with
    | zero => intro _; rw [tabTrap_zero, tabGrid_zero, intervalIntegral.integral_same]; simp
    | succ k ih =>
      intro hk
      have ih := ih (by omega)
      have hs := tabGrid_step N k
      obtain ⟨a0, a1⟩ := hgrid k (by omega)
      obtain ⟨b0, b1⟩ := hgrid (k + 1) hk
      obtain ⟨a, ha⟩ : ∃ a, a = tabGrid N k := ⟨_, rfl⟩
      obtain ⟨b, hb⟩ : ∃ b, b = tabGrid N (k + 1) := ⟨_, rfl⟩
      rw [tabTrap_succ, ← intervalIntegral.integral_add_adjacent_intervals (hc.intervalIntegrable _ (tabGrid N k)) (hc.intervalIntegrable _ _)]
      rw [← ha] at ih a0 a1 hs ⊢
      rw [← hb] at b0 b1 hs ⊢
      have hab : a ≤ b := by linarith
      have hcell : |1 / 2 * (g a + g b) * (b - a) - ∫ t in a..b, g t| ≤ (b - a) * (V b - V a) := by
        rw [hV]
        simp only
        by_cases hbm : b ≤ m
        · rw [if_pos hbm, if_pos (hab.trans hbm)]
          exact cell_error hc hab fun t h0 h1 => ⟨hup ⟨a0, by linarith⟩ ⟨by linarith, by linarith⟩ h0, hup ⟨by linarith, by linarith⟩ ⟨by linarith, hbm⟩ h1⟩
        · rw [if_neg hbm]
          have hbm := not_le.1 hbm
          by_cases ham : a ≤ m
          · rw [if_pos ham]
            refine (cell_error hc hab (lo := min (g a) (g b)) (hi := M) fun t h0 h1 => ⟨?_, hM t⟩).trans ?_
            · rcases le_total t m with h | h
              · exact (min_le_left _ _).trans (hup ⟨a0, ham⟩ ⟨by linarith, h⟩ h0)
              · exact (min_le_right _ _).trans (hdown ⟨h, by linarith⟩ ⟨hbm.le, b1⟩ h1)
            · refine mul_le_mul_of_nonneg_left ?_ (by linarith)
              rcases le_total (g a) (g b) with h | h
              · rw [min_eq_left h]; linarith [hM b]
              · rw [min_eq_right h]; linarith [hM a]
          · rw [if_neg ham]
            have ham := not_le.1 ham
            refine (cell_error hc hab (lo := g b) (hi := g a) fun t h0 h1 => ⟨hdown ⟨by linarith, by linarith⟩ ⟨by linarith, b1⟩ h1, hdown ⟨ham.le, a1⟩ ⟨by linarith, by linarith⟩ h0⟩).trans (le_of_eq ?_)
            ring
      rw [hs] at hcell
      have e : tabTrap N (fun j => g (tabGrid N j)) k + 1 / 2 * (g a + g b) * (2 * π / N) - ((∫ t in (-π)..a, g t) + ∫ t in a..b, g t)
          = (tabTrap N (fun j => g (tabGrid N j)) k - ∫ t in (-π)..a, g t) + (1 / 2 * (g a + g b) * (2 * π / N) - ∫ t in a..b, g t) := by ring
      rw [e]
      refine (abs_add_le _ _).trans ((add_le_add ih hcell).trans (le_of_eq ?_))
      ring
  refine (key k hk).trans (mul_le_mul_of_nonneg_left ?_ hp.le)
  rw [hV]
  simp only
  rw [if_pos hm0]
  have h0 := hpos (tabGrid N k)
  have h1 := hpos (-π)
  have h2 := hM (tabGrid N k)
  split_ifs <;> linarith

/-- The inverse Batschelet kernel has one peak, at `-2 nu`. -/
theorem invbatG_unimodal {kappa nu lmbd : ℝ} (hk : 0 ≤ kappa) (hn : |nu| ≤ 1) (hl : |lmbd| ≤ 1) :
    MonotoneOn (invbatG kappa nu lmbd) (Set.Icc (-π) (-2 * nu)) ∧ AntitoneOn (invbatG kappa nu lmbd) (Set.Icc (-2 * nu) π) := by
  have e : invbatU nu lmbd (-2 * nu) = 0 := by
    refine (invbatAngle_strictMono hn hl).injective ?_
    rw [invbatAngle_U hn hl]
    unfold invbatAngle
    simp only [sin_zero, mul_zero, sub_zero, cos_zero]; ring
  have hmono := (invbatU_strictMono hn hl).monotone
  have hl' := abs_le.1 hl
  have hw := (invbat_sin_strictMono (c := (1 - lmbd) / 2) (by linarith) (by linarith)).monotone
  have hwpi : π - (1 - lmbd) / 2 * sin π = π := by simp
  have hwnpi : -π - (1 - lmbd) / 2 * sin (-π) = -π := by simp
  have hw0 : (0 : ℝ) - (1 - lmbd) / 2 * sin 0 = 0 := by simp
  refine ⟨fun s hs t ht hst => ?_, fun s hs t ht hst => ?_⟩
  · have h1 := hw (hmono hst)
    have h2 := hw (hmono hs.1)
    have h3 := hw (hmono ht.2)
    rw [invbatU_neg_pi hn hl] at h2
    rw [e] at h3
    simp only at h1 h2 h3
    rw [hwnpi] at h2
    rw [hw0] at h3
    unfold invbatG invbatShape
    refine exp_le_exp.2 (mul_le_mul_of_nonneg_left ?_ hk)
    rw [← cos_neg, ← cos_neg (invbatU nu lmbd t - _)]
    exact cos_le_cos_of_nonneg_of_le_pi (by linarith) (by linarith) (by linarith)
  · have h1 := hw (hmono hst)
    have h2 := hw (hmono ht.2)
    have h3 := hw (hmono hs.1)
    rw [invbatU_pi hn hl] at h2
    rw [e] at h3
    simp only at h1 h2 h3
    rw [hwpi] at h2
    rw [hw0] at h3
    unfold invbatG invbatShape
    refine exp_le_exp.2 (mul_le_mul_of_nonneg_left ?_ hk)
    exact cos_le_cos_of_nonneg_of_le_pi (by linarith) (by linarith) (by linarith)

/-- The trapezoid mass of the kernel. -/
theorem invbatG_trap {kappa nu lmbd : ℝ} (hk : 0 ≤ kappa) (hn : |nu| ≤ 1) (hl : |lmbd| ≤ 1) {N : ℕ} (hN : 0 < N) :
    |tabTrap N (fun j => invbatG kappa nu lmbd (tabGrid N j)) N - invbatMass kappa lmbd| ≤ 2 * π / N * (2 * exp kappa) := by
  obtain ⟨h1, h2⟩ := invbatG_unimodal (kappa := kappa) hk hn hl
  have hn' := abs_le.1 hn
  have := tabTrap_unimodal (invbatG_continuous kappa hn hl) (fun t => (invbatG_pos kappa nu lmbd t).le) h1 h2 (by linarith [pi_gt_three])
    (invbatG_le hk nu lmbd) hN (le_refl N)
  rwa [tabGrid_last hN, invbatG_integral kappa hn hl] at this

end Verif
