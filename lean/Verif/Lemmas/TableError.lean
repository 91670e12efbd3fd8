import Verif.Lemmas.DistTable
import Mathlib.Analysis.SpecialFunctions.Integrals.Basic
import Mathlib.MeasureTheory.Integral.IntervalIntegral.IntegrationByParts

/-! # Accuracy of tabulated distribution functions -/

set_option autoImplicit false

namespace Verif

open Real MeasureTheory intervalIntegral

/-- A function with derivative `g'`, bounded by `M1` and Lipschitz with constant `M2`. -/
structure SmoothBy (g g' : ℝ → ℝ) (M1 M2 : ℝ) : Prop where
  deriv : ∀ t, HasDerivAt g (g' t) t
  bound : ∀ t, |g' t| ≤ M1
  lip : ∀ s t, |g' s - g' t| ≤ M2 * |s - t|

theorem SmoothBy.m2_nonneg {g g' : ℝ → ℝ} {M1 M2 : ℝ} (h : SmoothBy g g' M1 M2) : 0 ≤ M2 := by
  have := h.lip 1 0
  simp only [sub_zero, abs_one, mul_one] at this
  exact (abs_nonneg _).trans this

theorem SmoothBy.m1_nonneg {g g' : ℝ → ℝ} {M1 M2 : ℝ} (h : SmoothBy g g' M1 M2) : 0 ≤ M1 := (abs_nonneg _).trans (h.bound 0)

theorem SmoothBy.continuous_deriv {g g' : ℝ → ℝ} {M1 M2 : ℝ} (h : SmoothBy g g' M1 M2) : Continuous g' := by
  have hl : LipschitzWith (Real.toNNReal M2) g' := LipschitzWith.of_dist_le_mul fun s t => by
    rw [Real.dist_eq, Real.dist_eq, Real.coe_toNNReal _ h.m2_nonneg]
    exact h.lip s t
  exact hl.continuous

theorem SmoothBy.continuous {g g' : ℝ → ℝ} {M1 M2 : ℝ} (h : SmoothBy g g' M1 M2) : Continuous g :=
  continuous_iff_continuousAt.2 fun t => (h.deriv t).continuousAt

theorem SmoothBy.diff {g g' : ℝ → ℝ} {M1 M2 : ℝ} (h : SmoothBy g g' M1 M2) (s t : ℝ) : |g s - g t| ≤ M1 * |s - t| := by
  have := Convex.norm_image_sub_le_of_norm_hasDerivWithin_le (f := g) (f' := g') (s := Set.univ) (C := M1) (x := t) (y := s)
    (fun x _ => (h.deriv x).hasDerivWithinAt) (fun x _ => h.bound x) convex_univ (Set.mem_univ _) (Set.mem_univ _)
  simpa [Real.norm_eq_abs] using this

/-- One trapezoid. -/
theorem SmoothBy.trapezoid {g g' : ℝ → ℝ} {M1 M2 : ℝ} (h : SmoothBy g g' M1 M2) {a b : ℝ} (hab : a ≤ b) :
    |(b - a) / 2 * (g a + g b) - ∫ t in a..b, g t| ≤ M2 * (b - a) ^ 3 / 12 := by
  obtain ⟨m, hm⟩ : ∃ m, m = (a + b) / 2 := ⟨_, rfl⟩
  have ibp := integral_mul_deriv_eq_deriv_mul (a := a) (b := b) (u := fun t => t - m) (v := g) (u' := fun _ => 1) (v' := g')
    (fun t _ => (hasDerivAt_id' t).sub_const m) (fun t _ => h.deriv t) (by simp) (h.continuous_deriv.intervalIntegrable _ _)
  simp only [one_mul] at ibp
  have e1 : (b - a) / 2 * (g a + g b) - ∫ t in a..b, g t = ∫ t in a..b, (t - m) * g' t := by
    rw [ibp, hm]; ring
  have e0 : ∫ t in a..b, (t - m) * g' m = 0 := by
    rw [intervalIntegral.integral_mul_const, intervalIntegral.integral_sub (by simp) (by simp), integral_id, intervalIntegral.integral_const, hm, smul_eq_mul]
    ring
  have e2 : ∫ t in a..b, (t - m) * g' t = ∫ t in a..b, (t - m) * (g' t - g' m) := by
    have hc := h.continuous_deriv
    have i1 : IntervalIntegrable (fun t => (t - m) * g' t) volume a b := Continuous.intervalIntegrable (by fun_prop) _ _
    have i2 : IntervalIntegrable (fun t => (t - m) * g' m) volume a b := Continuous.intervalIntegrable (by fun_prop) _ _
    have : ∀ t, (t - m) * (g' t - g' m) = (t - m) * g' t - (t - m) * g' m := fun t => by ring
    simp only [this]
    rw [intervalIntegral.integral_sub i1 i2, e0, sub_zero]
  rw [e1, e2]
  have hb : ∀ t, |(t - m) * (g' t - g' m)| ≤ M2 * (t - m) ^ 2 := fun t => by
    rw [abs_mul]
    calc |t - m| * |g' t - g' m| ≤ |t - m| * (M2 * |t - m|) := mul_le_mul_of_nonneg_left (h.lip t m) (abs_nonneg _)
      _ = M2 * |t - m| ^ 2 := by ring
      _ = _ := by rw [sq_abs]
  have := norm_integral_le_of_norm_le (f := fun t => (t - m) * (g' t - g' m)) (g := fun t => M2 * (t - m) ^ 2) (μ := volume) hab
    (Filter.Eventually.of_forall fun t _ => hb t) (Continuous.intervalIntegrable (by fun_prop) _ _)
  rw [Real.norm_eq_abs] at this
  refine this.trans (le_of_eq ?_)
  rw [intervalIntegral.integral_const_mul]
  have e3 : ∫ t in a..b, (t - m) ^ 2 = ∫ t in (a - m)..(b - m), t ^ 2 := by
    rw [← intervalIntegral.integral_comp_sub_right (fun t => t ^ 2) m]
  rw [e3, integral_pow, hm]
  push_cast
  ring

/-- The line through two values of a primitive. -/
theorem SmoothBy.line {g g' : ℝ → ℝ} {M1 M2 : ℝ} (h : SmoothBy g g' M1 M2) {a b t : ℝ} (ht : 0 ≤ t) (ht' : t ≤ 1) (hab : a ≤ b) :
    |(1 / 2 * (g a + g b)) * (b - a) * t - ∫ s in a..(a + t * (b - a)), g s| ≤ M1 * (b - a) ^ 2 / 2 := by
  have hL : 0 ≤ b - a := by linarith
  have hc := h.continuous
  have e : (1 / 2 * (g a + g b)) * (b - a) * t = ∫ s in a..(a + t * (b - a)), 1 / 2 * (g a + g b) := by
    rw [intervalIntegral.integral_const, smul_eq_mul]; ring
  rw [e, ← intervalIntegral.integral_sub (by simp) (hc.intervalIntegrable _ _)]
  have hle : a ≤ a + t * (b - a) := by nlinarith
  have hb : ∀ s ∈ Set.uIoc a (a + t * (b - a)), ‖1 / 2 * (g a + g b) - g s‖ ≤ M1 * (b - a) / 2 := fun s hs => by
    rw [Set.uIoc_of_le hle] at hs
    have hs2 : s ≤ b := by nlinarith [hs.2]
    have h1 := h.diff a s
    have h2 := h.diff b s
    rw [abs_of_nonpos (by linarith [hs.1] : a - s ≤ 0)] at h1
    rw [abs_of_nonneg (by linarith : 0 ≤ b - s)] at h2
    rw [Real.norm_eq_abs]
    rw [abs_le] at h1 h2 ⊢
    constructor <;> linarith [h1.1, h1.2, h2.1, h2.2]
  have := norm_integral_le_of_norm_le_const hb
  rw [Real.norm_eq_abs] at this
  refine this.trans ?_
  rw [add_sub_cancel_left, abs_of_nonneg (mul_nonneg ht hL)]
  have := mul_le_mul_of_nonneg_left (mul_le_of_le_one_left hL ht') (by have := h.m1_nonneg; positivity : 0 ≤ M1 * (b - a) / 2)
  refine this.trans (le_of_eq ?_)
  ring

/-- The running sums. -/
theorem tabTrap_error {g g' : ℝ → ℝ} {M1 M2 : ℝ} (h : SmoothBy g g' M1 M2) {N : ℕ} (hN : 0 < N) (k : ℕ) (hk : k ≤ N) :
    |tabTrap N (fun j => g (tabGrid N j)) k - ∫ t in (-π)..(tabGrid N k), g t| ≤ k * (M2 * (2 * π / N) ^ 3 / 12) := by
  induction k with
  | zero => rw [tabTrap_zero, tabGrid_zero, integral_same]; simp
  | succ k ih =>
    have ih := ih (by omega)
    have hs := tabGrid_step N k
    have hp : 0 < 2 * π / N := by positivity
    have ht := h.trapezoid (by linarith : tabGrid N k ≤ tabGrid N (k + 1))
    rw [hs] at ht
    have hc := h.continuous
    rw [tabTrap_succ, ← integral_add_adjacent_intervals (hc.intervalIntegrable _ (tabGrid N k)) (hc.intervalIntegrable _ _)]
    have e : tabTrap N (fun j => g (tabGrid N j)) k + 1 / 2 * (g (tabGrid N k) + g (tabGrid N (k + 1))) * (2 * π / N)
        - ((∫ t in (-π)..(tabGrid N k), g t) + ∫ t in (tabGrid N k)..(tabGrid N (k + 1)), g t)
        = (tabTrap N (fun j => g (tabGrid N j)) k - ∫ t in (-π)..(tabGrid N k), g t)
          + (2 * π / N / 2 * (g (tabGrid N k) + g (tabGrid N (k + 1))) - ∫ t in (tabGrid N k)..(tabGrid N (k + 1)), g t) := by ring
    rw [e]
    refine (abs_add_le _ _).trans ((add_le_add ih ht).trans (le_of_eq ?_))
    push_cast
    ring

/-- Slopes at equal spacing differ from the neighbouring secants by at most the jump of the secants. -/
theorem pchipEdge_close {h m0 m1 : ℝ} (hh : 0 < h) (hm0 : 0 < m0) (hm1 : 0 < m1) : |pchipEdge h h m0 m1 - m0| ≤ |m1 - m0| := by
  unfold pchipEdge
  simp only
  have e : ((2 * h + h) * m0 - h * m1) / (h + h) = (3 * m0 - m1) / 2 := by field_simp; ring
  rw [e]
  split_ifs with c1 c2
  · rw [zero_sub, abs_neg, abs_of_pos hm0, sign_pos hm0] at *
    have : (3 * m0 - m1) / 2 ≤ 0 := by
      by_contra hc
      exact c1 (sign_pos (not_le.1 hc))
    rw [abs_of_pos (by linarith)]
    linarith
  · rw [sign_pos hm0, sign_pos hm1] at c2
    exact absurd rfl c2.1
  · rw [show (3 * m0 - m1) / 2 - m0 = -((m1 - m0) / 2) by ring, abs_neg, abs_div, abs_of_pos (by norm_num : (0 : ℝ) < 2)]
    have := abs_nonneg (m1 - m0)
    linarith

theorem pchipInner_close {h m0 m1 : ℝ} (hh : 0 < h) (hm0 : 0 < m0) (hm1 : 0 < m1) :
    |pchipInner h h m0 m1 - m0| ≤ |m1 - m0| ∧ |pchipInner h h m0 m1 - m1| ≤ |m1 - m0| := by
  unfold pchipInner
  rw [if_neg (by
    rw [sign_pos hm0, sign_pos hm1]
    push Not
    exact ⟨rfl, hm0.ne', hm1.ne'⟩)]
  have e : 1 / (((2 * h + h) / m0 + (h + 2 * h) / m1) / ((2 * h + h) + (h + 2 * h))) = 2 * m0 * m1 / (m0 + m1) := by
    field_simp
    ring
  rw [e]
  have hs : 0 < m0 + m1 := by linarith
  constructor
  · rw [show 2 * m0 * m1 / (m0 + m1) - m0 = m0 / (m0 + m1) * (m1 - m0) by field_simp; ring, abs_mul]
    refine mul_le_of_le_one_left (abs_nonneg _) ?_
    rw [abs_of_pos (by positivity), div_le_one hs]
    linarith
  · rw [show 2 * m0 * m1 / (m0 + m1) - m1 = -(m1 / (m0 + m1) * (m1 - m0)) by field_simp; ring, abs_neg, abs_mul]
    refine mul_le_of_le_one_left (abs_nonneg _) ?_
    rw [abs_of_pos (by positivity), div_le_one hs]
    linarith

/-- With equal spacing and increasing data whose secants change by at most `e` from piece to piece. -/
theorem pchipSlope_close {n : ℕ} {xs ys : ℕ → ℝ} {h e : ℝ} (hh : 0 < h) (hx : ∀ j, j < n → xs (j + 1) - xs j = h)
    (hm : ∀ j, j < n → 0 < pchipSecant xs ys j) (he0 : 0 ≤ e)
    (he : ∀ j, j + 1 < n → |pchipSecant xs ys (j + 1) - pchipSecant xs ys j| ≤ e) {i : ℕ} (hi : i < n) :
    |pchipSlope n xs ys i - pchipSecant xs ys i| ≤ e ∧ |pchipSlope n xs ys (i + 1) - pchipSecant xs ys i| ≤ e := by
  unfold pchipSlope
  simp only
  by_cases h1 : n = 1
  · have : i = 0 := by omega
    rw [if_pos h1, if_pos h1, this, sub_self, abs_zero]
    exact ⟨he0, he0⟩
  · rw [if_neg h1, if_neg h1, if_neg (by omega : ¬ i + 1 = 0), if_neg (by omega : ¬ i = n)]
    constructor
    · split_ifs with c
      · subst c
        rw [hx 0 (by omega), hx 1 (by omega)]
        exact (pchipEdge_close hh (hm 0 (by omega)) (hm 1 (by omega))).trans (he 0 (by omega))
      · rw [hx (i - 1) (by omega), hx i (by omega)]
        have := he (i - 1) (by omega)
        have hi1 : i - 1 + 1 = i := by omega
        rw [hi1] at this
        exact (pchipInner_close hh (hm (i - 1) (by omega)) (hm i (by omega))).2.trans this
    · split_ifs with c
      · have e1 : n - 1 = i := by omega
        have e2 : n - 2 + 1 = i := by omega
        rw [e1, hx i hi, hx (n - 2) (by omega)]
        have := he (n - 2) (by omega)
        rw [e2, abs_sub_comm] at this
        exact (pchipEdge_close hh (hm i hi) (hm (n - 2) (by omega))).trans this
      · rw [Nat.add_sub_cancel, hx i hi, hx (i + 1) (by omega)]
        exact (pchipInner_close hh (hm i hi) (hm (i + 1) (by omega))).1.trans (he i (by omega))

/-- The interpolated table is close to the distribution function. The table consists of values of a
positive smooth density `g`, and its trapezoid sum is 1. -/
theorem tabH_error {g g' : ℝ → ℝ} {M1 M2 : ℝ} (h : SmoothBy g g' M1 M2) {N : ℕ} (hN : 0 < N) (hg : ∀ t, 0 < g t)
    (h1 : tabTrap N (fun j => g (tabGrid N j)) N = 1) {phi : ℝ} (h0 : -π ≤ phi) (hpi : phi ≤ π) :
    |tabH N (fun j => g (tabGrid N j)) phi - ∫ t in (-π)..phi, g t| ≤ (2 * π / N) ^ 2 * (M2 * π / 6 + 3 / 4 * M1) := by
  obtain ⟨f, hf⟩ : ∃ f : ℕ → ℝ, f = fun j => g (tabGrid N j) := ⟨_, rfl⟩
  obtain ⟨p, hp⟩ : ∃ p, p = 2 * π / (N : ℝ) := ⟨_, rfl⟩
  have hp0 : 0 < p := by rw [hp]; positivity
  have hNR : (0 : ℝ) < N := by positivity
  have hfp : ∀ j, j ≤ N → 0 < f j := fun j _ => by rw [hf]; exact hg _
  have hcum : ∀ k, k ≤ N → tabCumul N f k = tabTrap N f k := fun k hk => by
    rcases Nat.eq_or_lt_of_le hk with e | e
    · rw [e, tabCumul_last, hf, h1]
    · exact tabCumul_eq hN hfp (by rw [hf, h1]) e
  have hsec : ∀ j, j < N → pchipSecant (tabGrid N) (tabCumul N f) j = 1 / 2 * (f j + f (j + 1)) := fun j hj => by
    unfold pchipSecant
    rw [hcum j hj.le, hcum (j + 1) hj, tabTrap_succ, tabGrid_step, add_sub_cancel_left, ← hp]
    field_simp
  have hjump : ∀ j, j + 1 < N → |pchipSecant (tabGrid N) (tabCumul N f) (j + 1) - pchipSecant (tabGrid N) (tabCumul N f) j| ≤ M1 * p := fun j hj => by
    rw [hsec j (by omega), hsec (j + 1) hj]
    have := h.diff (tabGrid N (j + 2)) (tabGrid N j)
    have e1 := tabGrid_step N j
    have e2 := tabGrid_step N (j + 1)
    rw [← hp] at e1 e2
    rw [show tabGrid N (j + 2) - tabGrid N j = 2 * p by linarith [e1, e2, (rfl : j + 1 + 1 = j + 2)], abs_of_pos (by linarith : 0 < 2 * p)] at this
    have e3 : 1 / 2 * (f (j + 1) + f (j + 1 + 1)) - 1 / 2 * (f j + f (j + 1)) = (g (tabGrid N (j + 2)) - g (tabGrid N j)) / 2 := by
      rw [hf]; ring
    rw [e3, abs_div, abs_of_pos (by norm_num : (0 : ℝ) < 2)]
    linarith
  obtain ⟨c1, c2, -⟩ := pchipCell_spec hN (xs := tabGrid N) (x := phi) (by rw [tabGrid_zero]; exact h0) (by rw [tabGrid_last hN]; exact hpi)
  have hc := pchipCell_lt hN (tabGrid N) phi
  obtain ⟨i, hi⟩ : ∃ i, pchipCell N (tabGrid N) phi = i := ⟨_, rfl⟩
  rw [hi] at c1 c2 hc
  have hstep := tabGrid_step N i
  rw [← hp] at hstep
  obtain ⟨t, ht⟩ : ∃ t, t = (phi - tabGrid N i) / p := ⟨_, rfl⟩
  have ht0 : 0 ≤ t := by rw [ht]; exact div_nonneg (by linarith) hp0.le
  have ht1 : t ≤ 1 := by rw [ht]; exact (div_le_one hp0).2 (by linarith)
  have hphi : phi = tabGrid N i + t * p := by rw [ht]; field_simp; ring
  have hH : tabH N f phi = hermite p (tabTrap N f i) (tabTrap N f (i + 1)) (pchipSlope N (tabGrid N) (tabCumul N f) i)
      (pchipSlope N (tabGrid N) (tabCumul N f) (i + 1)) t := by
    unfold tabH pchip
    simp only
    rw [hi, hstep, hcum i hc.le, hcum (i + 1) hc, ← ht]
  obtain ⟨s1, s2⟩ := pchipSlope_close hp0 (fun j _ => by rw [tabGrid_step, hp]) (fun j hj => by
    rw [hsec j hj]
    have := hfp j hj.le
    have := hfp (j + 1) hj
    linarith) (mul_nonneg h.m1_nonneg hp0.le) hjump hc
  have hline := hermite_line hp0.le (by
    rw [tabTrap_succ, hsec i hc, ← hp]; ring : tabTrap N f (i + 1) - tabTrap N f i = pchipSecant (tabGrid N) (tabCumul N f) i * p) s1 s2 ht0 ht1
  rw [← hH] at hline
  have hl2 := h.line ht0 ht1 (by linarith : tabGrid N i ≤ tabGrid N (i + 1))
  rw [hstep, ← hphi] at hl2
  have hn := tabTrap_error h hN i hc.le
  rw [← hf, ← hp] at hn
  have hsplit : ∫ s in (-π)..phi, g s = (∫ s in (-π)..(tabGrid N i), g s) + ∫ s in (tabGrid N i)..phi, g s :=
    (integral_add_adjacent_intervals (h.continuous.intervalIntegrable _ _) (h.continuous.intervalIntegrable _ _)).symm
  rw [← hf, hsplit, ← hp]
  have hsi := hsec i hc
  have hkey : tabH N f phi - ((∫ s in (-π)..(tabGrid N i), g s) + ∫ s in (tabGrid N i)..phi, g s)
      = (tabH N f phi - (tabTrap N f i + pchipSecant (tabGrid N) (tabCumul N f) i * p * t))
        + (tabTrap N f i - ∫ s in (-π)..(tabGrid N i), g s)
        + (1 / 2 * (g (tabGrid N i) + g (tabGrid N (i + 1))) * p * t - ∫ s in (tabGrid N i)..phi, g s) := by
    rw [hsi, hf]; ring
  rw [hkey]
  refine (abs_add_le _ _).trans ?_
  refine (add_le_add ((abs_add_le _ _).trans (add_le_add hline hn)) hl2).trans ?_
  have hiN : (i : ℝ) * p ≤ 2 * π := by
    have : (i : ℝ) ≤ N := by exact_mod_cast hc.le
    rw [hp]
    calc (i : ℝ) * (2 * π / N) ≤ N * (2 * π / N) := mul_le_mul_of_nonneg_right this (by positivity)
      _ = 2 * π := by field_simp
  have h2 : (i : ℝ) * (M2 * p ^ 3 / 12) ≤ p ^ 2 * (M2 * π / 6) := by
    calc (i : ℝ) * (M2 * p ^ 3 / 12) = (i * p) * (M2 * p ^ 2 / 12) := by ring
      _ ≤ 2 * π * (M2 * p ^ 2 / 12) := mul_le_mul_of_nonneg_right hiN (by have := h.m2_nonneg; positivity)
      _ = _ := by ring
  linarith

/-- The relative angle differs from `x - mu` by whole turns. -/
theorem tabRel_congr (x mu : ℝ) : ∃ k : ℤ, tabRel x mu = x - mu + k * (2 * π) := by
  obtain ⟨k, hk⟩ := pymod_cong (x - mu + π) (2 * π)
  refine ⟨k, ?_⟩
  unfold tabRel
  linarith

theorem periodic_tabRel {g : ℝ → ℝ} (hper : Function.Periodic g (2 * π)) (x mu : ℝ) : g (tabRel x mu) = g (x - mu) := by
  obtain ⟨k, hk⟩ := tabRel_congr x mu
  rw [hk]
  exact (hper.int_mul k) _

/-- Error of the cdf read from the table, from that of the interpolated distribution function. -/
theorem tabCdf_error {g : ℝ → ℝ} (hc : Continuous g) (hper : Function.Periodic g (2 * π)) {N : ℕ} (hN : 0 < N) {f : ℕ → ℝ}
    (hs : Increasing N (tabCumul N f)) {E : ℝ}
    (hE : ∀ phi, -π ≤ phi → phi ≤ π → |tabH N f phi - ∫ t in (-π)..phi, g t| ≤ E) (mu : ℝ) {x : ℝ} (h0 : 0 ≤ x)
    (h1 : x < 2 * π - 1 / 10 ^ 12) : |tabCdf N f mu x - ∫ t in (0 : ℝ)..x, g (t - mu)| ≤ 3 * E := by
  have hx2 : x < 2 * π := h1.trans (by norm_num)
  obtain ⟨a, b⟩ := tabRel_mem 0 mu
  have hi : ∀ u v, IntervalIntegrable g volume u v := fun u v => hc.intervalIntegrable u v
  obtain ⟨k, hk⟩ := tabRel_congr 0 mu
  have hint : ∫ t in (0 : ℝ)..x, g (t - mu) = ∫ t in (tabRel 0 mu)..(tabRel 0 mu + x), g t := by
    have e : ∀ t, g (t - mu) = g (t + tabRel 0 mu) := fun t => by
      rw [hk, show t + (0 - mu + k * (2 * π)) = (t - mu) + k * (2 * π) by ring]
      exact ((hper.int_mul k) _).symm
    simp_rw [e]
    rw [intervalIntegral.integral_comp_add_right]
    congr 1 <;> ring
  rw [hint, tabCdf_eq hN hs mu h0 h1]
  have hE0 := hE _ a b.le
  split_ifs with hlt
  · have hE1 := hE (tabRel 0 mu + x) (by linarith) hlt.le
    rw [← intervalIntegral.integral_interval_sub_left (hi (-π) _) (hi (-π) _)]
    have hEp : 0 ≤ E := (abs_nonneg _).trans hE0
    rw [abs_le] at hE0 hE1 ⊢
    constructor <;> linarith
  · push Not at hlt
    have hE1 := hE (tabRel 0 mu + x - 2 * π) (by linarith) (by linarith)
    have hE2 := hE π (by linarith [pi_pos]) (le_refl _)
    rw [(tabH_ends hN f).2] at hE2
    have e1 : ∫ t in (tabRel 0 mu)..(tabRel 0 mu + x), g t = (∫ t in (-π)..π, g t) - (∫ t in (-π)..(tabRel 0 mu), g t)
        + ∫ t in (-π)..(tabRel 0 mu + x - 2 * π), g t := by
      rw [intervalIntegral.integral_interval_sub_left (hi (-π) _) (hi (-π) _)]
      have e2 : ∫ t in (-π)..(tabRel 0 mu + x - 2 * π), g t = ∫ t in π..(tabRel 0 mu + x), g t := by
        have := intervalIntegral.integral_comp_add_right (a := -π) (b := tabRel 0 mu + x - 2 * π) (fun t => g t) (2 * π)
        rw [show -π + 2 * π = π by ring, show tabRel 0 mu + x - 2 * π + 2 * π = tabRel 0 mu + x by ring] at this
        rw [← this]
        congr 1
        funext t
        exact (hper t).symm
      rw [e2, integral_add_adjacent_intervals (hi _ _) (hi _ _)]
    rw [e1]
    rw [abs_le] at hE0 hE1 hE2 ⊢
    constructor <;> linarith

end Verif
