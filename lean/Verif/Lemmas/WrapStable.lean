import Verif.Model.DistWrapStable
import Verif.Lemmas.WrapNormPdf
import Mathlib.Analysis.Complex.ExponentialBounds

/-!
# Helper lemmas: the series of the wrapped stable distribution
-/

set_option autoImplicit false

namespace Verif

open Real MeasureTheory

/-! ## The number of terms -/

lemma ws_log_tol : -log (1 / 10 ^ 12) = 12 * log 10 := by
  rw [one_div, log_inv, neg_neg, log_pow]; norm_num

lemma log_ten_eq : log (10 : ℝ) = 3 * log 2 + log (5 / 4) := by
  rw [show (10 : ℝ) = 2 ^ 3 * (5 / 4) by norm_num, log_mul (by norm_num) (by norm_num), log_pow]
  norm_num

lemma log_ten_gt : (2.27 : ℝ) < log 10 := by
  have h2 := log_two_gt_d9
  have h := Real.one_sub_inv_le_log_of_pos (show (0 : ℝ) < 5 / 4 by norm_num)
  norm_num at h
  rw [log_ten_eq]; linarith

lemma log_ten_lt : log (10 : ℝ) < 2.33 := by
  have h2 := log_two_lt_d9
  have h := Real.log_le_sub_one_of_pos (show (0 : ℝ) < 5 / 4 by norm_num)
  norm_num at h
  rw [log_ten_eq]; linarith

/-- The bound `L = 12 log 10` on `(γ p) ^ α` above which a coefficient is at most `1e-12`. -/
lemma wsRho_le_iff (s : WS) (p : ℝ) : wsRho s p ≤ 1 / 10 ^ 12 ↔ 12 * log 10 ≤ (s.gamma * p) ^ s.alpha := by
  rw [wsRho, ← ws_log_tol, ← le_log_iff_exp_le (by norm_num)]
  constructor <;> intro h <;> linarith

lemma wsRho_pos (s : WS) (p : ℝ) : 0 < wsRho s p := exp_pos _

lemma wsRho_anti {s : WS} (hs : wsArgcheck s) {p q : ℝ} (hp : 0 ≤ p) (h : p ≤ q) : wsRho s q ≤ wsRho s p := by
  obtain ⟨-, ⟨ha, -⟩, -, hg⟩ := hs
  rw [wsRho, wsRho, exp_le_exp, neg_le_neg_iff]
  exact rpow_le_rpow (by positivity) (mul_le_mul_of_nonneg_left h hg.le) ha.le

/-- `12 log 10 ≤ (γ p) ^ α` says that `p` is at least the exponential of the code's exponent. -/
lemma ws_exponent_iff {s : WS} (hs : wsArgcheck s) {p : ℝ} (hp : 0 < p) :
    12 * log 10 ≤ (s.gamma * p) ^ s.alpha
      ↔ log (-log (1 / 10 ^ 12)) / s.alpha - log s.gamma ≤ log p := by
  obtain ⟨-, ⟨ha, -⟩, -, hg⟩ := hs
  have hL : 0 < 12 * log (10 : ℝ) := by have := log_ten_gt; linarith
  rw [ws_log_tol, sub_le_iff_le_add, ← log_mul hp.ne' hg.ne', div_le_iff₀ ha, ← log_le_log_iff hL (by positivity),
    log_rpow (by positivity), mul_comm s.gamma p, mul_comm s.alpha]

/-- The number of terms: `k ≤ P` says that the term before the `k`-th one is not yet negligible, up to the limit. -/
lemma wsOrder_iff {s : WS} (hs : wsArgcheck s) (k : ℕ) :
    k + 1 ≤ wsOrder s ↔ k ≤ 20000 ∧ 1 / 10 ^ 12 < wsRho s k := by
  classical
  have ha := hs.2.1.1
  have hg := hs.2.2.2
  by_cases hbig : 12 * log 10 ≤ (s.gamma * 20000) ^ s.alpha
  · have he := (ws_exponent_iff hs (by norm_num)).1 hbig
    obtain ⟨e, hedef⟩ : ∃ e, e = log (-log (1 / 10 ^ 12)) / s.alpha - log s.gamma := ⟨_, rfl⟩
    have hle : ⌈max 1 (exp e)⌉₊ ≤ 20000 := by
      rw [Nat.ceil_le]
      refine max_le (by norm_num) ?_
      rw [hedef]; push_cast
      calc _ ≤ exp (log 20000) := exp_le_exp.2 he
        _ = 20000 := exp_log (by norm_num)
    have hI : wsInitial s = ⌈max 1 (exp e)⌉₊ := by
      unfold wsInitial
      dsimp only
      rw [if_neg (not_lt.2 he), ← hedef, min_eq_right hle]
    have hge1 : 1 ≤ ⌈max 1 (exp e)⌉₊ := Nat.one_le_ceil_iff.2 (lt_max_of_lt_left one_pos)
    have hiff : ∀ p : ℝ, 0 < p → (wsRho s p ≤ 1 / 10 ^ 12 ↔ exp e ≤ p) := fun p hp => by
      rw [wsRho_le_iff, ws_exponent_iff hs hp, ← hedef, le_log_iff_exp_le hp]
    obtain ⟨P, hP⟩ : ∃ P, P = ⌈max 1 (exp e)⌉₊ := ⟨_, rfl⟩
    rw [← hP] at hle hge1
    have hP0 : (1 : ℝ) ≤ P := by exact_mod_cast hge1
    have hrho : wsRho s P ≤ 1 / 10 ^ 12 := by
      rw [hiff P (by linarith), hP]
      exact (le_max_right 1 _).trans (Nat.le_ceil _)
    have hord : wsOrder s = P := by
      have h1 : wsOrder s = wsGrow s (19999 + 1) P := by
        unfold wsOrder
        rw [hI, ← hP, max_self, max_eq_right hge1]
      rw [h1]
      unfold wsGrow
      rw [if_pos]
      refine ⟨hrho, (div_le_self (wsRho_pos _ _).le hP0).trans hrho⟩
    rw [hord]
    constructor
    · intro hk
      refine ⟨by omega, ?_⟩
      have hk1 : (k : ℝ) < max 1 (exp e) := by
        rw [← Nat.lt_ceil, ← hP]; omega
      rcases Nat.eq_zero_or_pos k with h0 | h0
      · subst h0
        simp only [wsRho, Nat.cast_zero, mul_zero, zero_rpow ha.ne', neg_zero, exp_zero]
        norm_num
      · by_contra hcon
        have h1 : (1 : ℝ) ≤ k := by exact_mod_cast h0
        have := (hiff k (by linarith)).1 (not_lt.1 hcon)
        exact absurd hk1 (not_lt.2 (max_le h1 this))
    · rintro ⟨-, hk⟩
      by_contra hcon
      have hkP : P ≤ k := by omega
      have : wsRho s k ≤ wsRho s P := wsRho_anti hs (by positivity) (by exact_mod_cast hkP)
      linarith
  · have hnot := mt (ws_exponent_iff hs (by norm_num)).2 hbig
    have hI : wsInitial s = 20000 := by
      unfold wsInitial
      dsimp only
      rw [if_pos (not_le.1 hnot)]
    have hr : ¬ wsRho s ((20000 : ℕ) : ℝ) ≤ 1 / 10 ^ 12 := by
      rw [wsRho_le_iff]; push_cast; exact hbig
    have hord : wsOrder s = 20001 := by
      have h1 : wsOrder s = wsGrow s (19999 + 1) 20000 := by
        unfold wsOrder
        rw [hI]; rfl
      rw [h1]
      unfold wsGrow
      rw [if_neg (fun h => hr h.1), if_pos (by norm_num)]
    rw [hord]
    constructor
    · intro hk
      refine ⟨by omega, lt_of_lt_of_le (not_le.1 hr) (wsRho_anti hs (by positivity) ?_)⟩
      exact_mod_cast (by omega : k ≤ 20000)
    · rintro ⟨hk, -⟩; omega

lemma wsOrder_pos {s : WS} (hs : wsArgcheck s) : 1 ≤ wsOrder s := by
  refine (wsOrder_iff hs 0).2 ⟨by norm_num, ?_⟩
  simp only [wsRho, Nat.cast_zero, mul_zero, zero_rpow hs.2.1.1.ne', neg_zero, exp_zero]
  norm_num

lemma wsGrow_congr {s s' : WS} (ha : s.alpha = s'.alpha) (hg : s.gamma = s'.gamma) :
    ∀ n P, wsGrow s n P = wsGrow s' n P := by
  intro n
  induction n with
  | zero => intro P; rfl
  | succ n ih =>
    intro P
    have hr : wsRho s = wsRho s' := by funext p; rw [wsRho, wsRho, ha, hg]
    unfold wsGrow
    rw [hr, ih]

lemma wsOrder_congr {s s' : WS} (ha : s.alpha = s'.alpha) (hg : s.gamma = s'.gamma) : wsOrder s = wsOrder s' := by
  unfold wsOrder
  rw [wsGrow_congr ha hg, wsInitial, wsInitial, ha, hg]

/-! ## Integrals -/

lemma int_cos_int {n : ℤ} (m : ℝ) :
    ∫ x in (0 : ℝ)..(2 * π), cos (n * x - m) = if n = 0 then 2 * π * cos m else 0 := by
  split_ifs with h
  · subst h; simp
  · have hn : (n : ℝ) ≠ 0 := by exact_mod_cast h
    have e : ∀ x : ℝ, n * x - m = n * (x - m / n) := fun x => by field_simp
    simp only [e]
    rw [int_cos_mul hn, show (n : ℝ) * (2 * π - m / n) = n * (0 - m / n) + n * (2 * π) by ring,
      sin_add_int_mul_two_pi, sub_self, zero_div]

lemma int_cos_cos (k p : ℕ) (m : ℝ) : ∫ x in (0 : ℝ)..(2 * π), cos ((k + 1) * x) * cos ((p + 1) * x - m)
    = if p = k then π * cos m else 0 := by
  have e : ∀ x : ℝ, cos ((k + 1) * x) * cos ((p + 1) * x - m)
      = (cos (((p + k + 2 : ℤ) : ℝ) * x - m) + cos (((p - k : ℤ) : ℝ) * x - m)) / 2 := fun x => by
    have h1 : ((p + k + 2 : ℤ) : ℝ) * x - m = ((p + 1) * x - m) + (k + 1) * x := by push_cast; ring
    have h2 : ((p - k : ℤ) : ℝ) * x - m = ((p + 1) * x - m) - (k + 1) * x := by push_cast; ring
    rw [h1, h2]
    generalize ((p : ℝ) + 1) * x - m = A
    generalize ((k : ℝ) + 1) * x = B
    rw [cos_add, cos_sub]; ring
  simp only [e]
  rw [intervalIntegral.integral_div, intervalIntegral.integral_add
    ((by fun_prop : Continuous _).intervalIntegrable _ _) ((by fun_prop : Continuous _).intervalIntegrable _ _),
    int_cos_int, int_cos_int, if_neg (by omega)]
  by_cases h : p = k
  · rw [if_pos (by omega), if_pos h]; ring
  · rw [if_neg (by omega), if_neg h]; ring

lemma int_sin_cos (k p : ℕ) (m : ℝ) : ∫ x in (0 : ℝ)..(2 * π), sin ((k + 1) * x) * cos ((p + 1) * x - m)
    = if p = k then π * sin m else 0 := by
  have e : ∀ x : ℝ, sin ((k + 1) * x) * cos ((p + 1) * x - m)
      = (cos (((p + k + 2 : ℤ) : ℝ) * x - (m + π / 2)) - cos (((p - k : ℤ) : ℝ) * x - (m + π / 2))) / 2 := fun x => by
    have h1 : ((p + k + 2 : ℤ) : ℝ) * x - (m + π / 2) = (((p + 1) * x - m) + (k + 1) * x) - π / 2 := by push_cast; ring
    have h2 : ((p - k : ℤ) : ℝ) * x - (m + π / 2) = (((p + 1) * x - m) - (k + 1) * x) - π / 2 := by push_cast; ring
    rw [h1, h2, cos_sub_pi_div_two, cos_sub_pi_div_two]
    generalize ((p : ℝ) + 1) * x - m = A
    generalize ((k : ℝ) + 1) * x = B
    rw [sin_add, sin_sub]; ring
  simp only [e]
  rw [intervalIntegral.integral_div, intervalIntegral.integral_sub
    ((by fun_prop : Continuous _).intervalIntegrable _ _) ((by fun_prop : Continuous _).intervalIntegrable _ _),
    int_cos_int, int_cos_int, if_neg (by omega)]
  by_cases h : p = k
  · rw [if_pos (by omega), if_pos h, cos_add_pi_div_two]; ring
  · rw [if_neg (by omega), if_neg h]; ring

lemma wsPdf_continuous (s : WS) : Continuous fun x => wsPdf x s := by
  unfold wsPdf
  fun_prop

lemma wsPdf_periodic (s : WS) (x : ℝ) : wsPdf (x + 2 * π) s = wsPdf x s := by
  unfold wsPdf
  congr 3
  refine Finset.sum_congr rfl fun i _ => ?_
  have : ((i : ℝ) + 1) * (x + 2 * π) - wsMu s (i + 1)
      = ((i : ℝ) + 1) * x - wsMu s (i + 1) + ((i + 1 : ℕ) : ℝ) * (2 * π) := by push_cast; ring
  rw [this, cos_add_nat_mul_two_pi]

/-- The integral of the density is the anchored series of the distribution function. -/
lemma wsPdf_integral (s : WS) (a b : ℝ) : ∫ x in a..b, wsPdf x s = wsSeries b s - wsSeries a s := by
  have hd : ∀ x ∈ Set.uIcc a b, HasDerivAt (fun x => wsSeries x s) (wsPdf x s) x := by
    intro x _
    have hterm : ∀ i ∈ Finset.range (wsOrder s), HasDerivAt
        (fun x => wsRho s (i + 1) / (i + 1) * sin ((i + 1) * x - wsMu s (i + 1)))
        (wsRho s (i + 1) * cos ((i + 1) * x - wsMu s (i + 1))) x := fun i _ => by
      have h1 : HasDerivAt (fun x : ℝ => ((i : ℝ) + 1) * x - wsMu s (i + 1)) (((i : ℝ) + 1) * 1) x :=
        ((hasDerivAt_id x).const_mul _).sub_const _
      have h2 := (h1.sin).const_mul (wsRho s (i + 1) / (i + 1))
      have hi : (i : ℝ) + 1 ≠ 0 := by positivity
      refine h2.congr_deriv ?_
      generalize cos (((i : ℝ) + 1) * x - wsMu s (i + 1)) = C
      field_simp
    have h := ((((hasDerivAt_id x).div_const (2 * π)).add ((HasDerivAt.fun_sum hterm).const_mul (1 / π))).sub_const
      (1 / π * ∑ i ∈ Finset.range (wsOrder s), wsRho s (i + 1) / (i + 1) * sin (-wsMu s (i + 1))))
    unfold wsSeries
    refine h.congr_deriv ?_
    unfold wsPdf
    generalize ∑ i ∈ Finset.range (wsOrder s), wsRho s (i + 1) * cos ((i + 1) * x - wsMu s (i + 1)) = S
    field_simp
  exact intervalIntegral.integral_eq_sub_of_hasDerivAt hd ((wsPdf_continuous s).intervalIntegrable _ _)

lemma wsSeries_zero (s : WS) : wsSeries 0 s = 0 := by
  unfold wsSeries
  simp

lemma wsSeries_two_pi (s : WS) : wsSeries (2 * π) s = 1 := by
  unfold wsSeries
  have : ∀ i : ℕ, sin (((i : ℝ) + 1) * (2 * π) - wsMu s (i + 1)) = sin (-wsMu s (i + 1)) := fun i => by
    have : ((i : ℝ) + 1) * (2 * π) - wsMu s (i + 1) = -wsMu s (i + 1) + ((i + 1 : ℕ) : ℝ) * (2 * π) := by
      push_cast; ring
    rw [this, sin_add_nat_mul_two_pi]
  simp only [this]
  field_simp
  ring

/-- Integrals of the density against a function, term by term. -/
lemma ws_int_mul (s : WS) {c : ℝ → ℝ} (hc : Continuous c) :
    ∫ x in (0 : ℝ)..(2 * π), c x * wsPdf x s = 1 / (2 * π) * ((∫ x in (0 : ℝ)..(2 * π), c x)
      + 2 * ∑ i ∈ Finset.range (wsOrder s),
          wsRho s (i + 1) * ∫ x in (0 : ℝ)..(2 * π), c x * cos ((i + 1) * x - wsMu s (i + 1))) := by
  have e : ∀ x, c x * wsPdf x s = 1 / (2 * π) * (c x + 2 * ∑ i ∈ Finset.range (wsOrder s),
      wsRho s (i + 1) * (c x * cos ((i + 1) * x - wsMu s (i + 1)))) := fun x => by
    unfold wsPdf
    have : ∑ i ∈ Finset.range (wsOrder s), wsRho s (i + 1) * (c x * cos ((i + 1) * x - wsMu s (i + 1)))
        = c x * ∑ i ∈ Finset.range (wsOrder s), wsRho s (i + 1) * cos ((i + 1) * x - wsMu s (i + 1)) := by
      rw [Finset.mul_sum]; exact Finset.sum_congr rfl fun i _ => by ring
    rw [this]; ring
  simp only [e]
  rw [intervalIntegral.integral_const_mul, intervalIntegral.integral_add (hc.intervalIntegrable _ _)
    ((by fun_prop : Continuous _).intervalIntegrable _ _), intervalIntegral.integral_const_mul,
    intervalIntegral.integral_finsetSum fun i _ => (by fun_prop : Continuous _).intervalIntegrable _ _]
  simp only [intervalIntegral.integral_const_mul]

lemma wsPdf_mass (s : WS) : ∫ x in (0 : ℝ)..(2 * π), wsPdf x s = 1 := by
  rw [wsPdf_integral, wsSeries_zero, wsSeries_two_pi, sub_zero]

lemma wsPdf_cos (s : WS) (k : ℕ) : ∫ x in (0 : ℝ)..(2 * π), cos ((k + 1) * x) * wsPdf x s
    = if k + 1 ≤ wsOrder s then wsRho s (k + 1) * cos (wsMu s (k + 1)) else 0 := by
  rw [ws_int_mul s (by fun_prop : Continuous fun x : ℝ => cos (((k : ℝ) + 1) * x))]
  simp only [int_cos_cos]
  have h0 : ∫ x in (0 : ℝ)..(2 * π), cos (((k : ℝ) + 1) * x) = 0 := by
    have := int_cos_period (n := k + 1) (by omega) 0
    simpa using this
  rw [h0]
  simp only [mul_ite, mul_zero, Finset.sum_ite_eq', Finset.mem_range]
  have : (k < wsOrder s) ↔ k + 1 ≤ wsOrder s := Iff.rfl
  rw [if_congr this rfl rfl]
  have hpi := pi_ne_zero
  split_ifs
  · field_simp; ring
  · ring

lemma wsPdf_sin (s : WS) (k : ℕ) : ∫ x in (0 : ℝ)..(2 * π), sin ((k + 1) * x) * wsPdf x s
    = if k + 1 ≤ wsOrder s then wsRho s (k + 1) * sin (wsMu s (k + 1)) else 0 := by
  rw [ws_int_mul s (by fun_prop : Continuous fun x : ℝ => sin (((k : ℝ) + 1) * x))]
  simp only [int_sin_cos]
  have h0 : ∫ x in (0 : ℝ)..(2 * π), sin (((k : ℝ) + 1) * x) = 0 := by
    have := @int_cos_int ((k : ℤ) + 1) (π / 2)
    rw [if_neg (by omega)] at this
    simpa [cos_sub_pi_div_two] using this
  rw [h0]
  simp only [mul_ite, mul_zero, Finset.sum_ite_eq', Finset.mem_range]
  have : (k < wsOrder s) ↔ k + 1 ≤ wsOrder s := Iff.rfl
  rw [if_congr this rfl rfl]
  have hpi := pi_ne_zero
  split_ifs
  · field_simp; ring
  · ring

end Verif
