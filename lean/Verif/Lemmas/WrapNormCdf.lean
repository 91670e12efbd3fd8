import Verif.Lemmas.WrapNorm
import Verif.Props.DistCartwright
import Mathlib.Analysis.SpecialFunctions.Log.Deriv
import Mathlib.Analysis.SpecificLimits.Basic
import Mathlib.Analysis.Complex.ExponentialBounds

/-! # The wrapped sums of the wrapped normal distribution -/

set_option autoImplicit false

namespace Verif

open Verif.Spec Real MeasureTheory ProbabilityTheory

/-- The ratio by which the normal density falls over one turn away from the centre. -/
noncomputable def wnRatio (sigma : ℝ) : ℝ := exp (-(2 * π ^ 2 / sigma ^ 2))

lemma wnRatio_pos (sigma : ℝ) : 0 < wnRatio sigma := exp_pos _

lemma wnRatio_lt {sigma : ℝ} (hs : 0 < sigma) : wnRatio sigma < 1 := by
  unfold wnRatio
  rw [exp_lt_one_iff]
  have : 0 < 2 * π ^ 2 / sigma ^ 2 := by positivity
  linarith

lemma gk_step {sigma y : ℝ} (hs : 0 < sigma) (hy : 0 ≤ y) : gk sigma (y + 2 * π) ≤ wnRatio sigma * gk sigma y := by
  unfold gk wnRatio
  rw [← mul_div_assoc, ← exp_add]
  refine div_le_div_of_nonneg_right (exp_le_exp.mpr ?_) (by positivity)
  have : -(y + 2 * π) ^ 2 / (2 * sigma ^ 2) = -(2 * π ^ 2 / sigma ^ 2) + -y ^ 2 / (2 * sigma ^ 2) - 2 * π * y / sigma ^ 2 := by
    field_simp; ring
  rw [this]
  have : 0 ≤ 2 * π * y / sigma ^ 2 := by have := pi_pos; positivity
  linarith

lemma gk_step_neg {sigma y : ℝ} (hs : 0 < sigma) (hy : y ≤ 0) : gk sigma (y - 2 * π) ≤ wnRatio sigma * gk sigma y := by
  have := gk_step hs (neg_nonneg.mpr hy)
  rwa [show -y + 2 * π = -(y - 2 * π) by ring, gk_neg, gk_neg] at this

lemma wnDelta_nonneg {theta mu sigma shift : ℝ} (hs : 0 < sigma) (h0 : 0 ≤ theta) : 0 ≤ wnDelta theta mu sigma shift := by
  rw [wnDelta_eq hs]
  exact intervalIntegral.integral_nonneg h0 fun t _ => (gk_pos hs _).le

section
variable {theta mu sigma : ℝ} (hs : 0 < sigma) (h0 : 0 ≤ theta) (h1 : theta ≤ 2 * π) (hm0 : 0 ≤ mu) (hm1 : mu ≤ 2 * π)
include hs h0

include hm1 in
lemma wnDelta_step (k : ℕ) (hk : 1 ≤ k) :
    wnDelta theta mu sigma (2 * π * (k + 1 : ℕ)) ≤ wnRatio sigma * wnDelta theta mu sigma (2 * π * k) := by
  rw [wnDelta_eq hs, wnDelta_eq hs, ← intervalIntegral.integral_const_mul]
  have hk' : (1 : ℝ) ≤ k := by exact_mod_cast hk
  refine intervalIntegral.integral_mono_on h0 ((gk_shift_continuous sigma mu _).intervalIntegrable _ _)
    ((continuous_const.mul (gk_shift_continuous sigma mu _)).intervalIntegrable _ _) fun t ht => ?_
  have hy : 0 ≤ t - mu + 2 * π * k := by nlinarith [ht.1, two_pi_pos]
  have := gk_step hs hy
  rwa [show t - mu + 2 * π * k + 2 * π = t - mu + 2 * π * (k + 1 : ℕ) by push_cast; ring] at this

include h1 hm0 in
lemma wnDelta_step_neg (k : ℕ) (hk : 1 ≤ k) :
    wnDelta theta mu sigma (-(2 * π * (k + 1 : ℕ))) ≤ wnRatio sigma * wnDelta theta mu sigma (-(2 * π * k)) := by
  rw [wnDelta_eq hs, wnDelta_eq hs, ← intervalIntegral.integral_const_mul]
  have hk' : (1 : ℝ) ≤ k := by exact_mod_cast hk
  refine intervalIntegral.integral_mono_on h0 ((gk_shift_continuous sigma mu _).intervalIntegrable _ _)
    ((continuous_const.mul (gk_shift_continuous sigma mu _)).intervalIntegrable _ _) fun t ht => ?_
  have hy : t - mu + -(2 * π * k) ≤ 0 := by nlinarith [ht.2, two_pi_pos]
  have := gk_step_neg hs hy
  rwa [show t - mu + -(2 * π * k) - 2 * π = t - mu + -(2 * π * (k + 1 : ℕ)) by push_cast; ring] at this

/-- The two contributions of pass `k`. -/
noncomputable def wnPair (theta mu sigma : ℝ) (k : ℕ) : ℝ :=
  wnDelta theta mu sigma (2 * π * k) + wnDelta theta mu sigma (-(2 * π * k))

lemma wnPair_nonneg (k : ℕ) : 0 ≤ wnPair theta mu sigma k := add_nonneg (wnDelta_nonneg hs h0) (wnDelta_nonneg hs h0)

include h1 hm0 hm1 in
lemma wnPair_step (k : ℕ) (hk : 1 ≤ k) : wnPair theta mu sigma (k + 1) ≤ wnRatio sigma * wnPair theta mu sigma k := by
  unfold wnPair
  rw [mul_add]
  exact add_le_add (wnDelta_step hs h0 hm1 k hk) (wnDelta_step_neg hs h0 h1 hm0 k hk)

include h1 hm0 hm1 in
lemma wnPair_pow (k : ℕ) (hk : 1 ≤ k) (j : ℕ) : wnPair theta mu sigma (k + j) ≤ wnRatio sigma ^ j * wnPair theta mu sigma k := by
  induction j with
  | zero => simp
  | succ j ih =>
    calc _ ≤ wnRatio sigma * wnPair theta mu sigma (k + j) := wnPair_step hs h0 h1 hm0 hm1 (k + j) (by omega)
      _ ≤ wnRatio sigma * (wnRatio sigma ^ j * wnPair theta mu sigma k) := by
        exact mul_le_mul_of_nonneg_left ih (wnRatio_pos sigma).le
      _ = _ := by ring

include h1 in
lemma wnPair_hasSum : HasSum (fun j : ℕ => wnPair theta mu sigma (j + 1))
    ((∫ t in (0 : ℝ)..theta, wrappedNormal mu sigma t) - wnDelta theta mu sigma 0) := by
  have h := (wn_hasSum hs mu h0 h1).nat_add_neg
  have h3 := (hasSum_nat_add_iff' 1).mpr h
  simp only [Finset.sum_range_one] at h3
  have e : ∀ n : ℕ, wnDelta theta mu sigma (2 * π * (((n + 1 : ℕ) : ℤ) : ℝ)) + wnDelta theta mu sigma (2 * π * ((-((n + 1 : ℕ) : ℤ) : ℤ) : ℝ))
      = wnPair theta mu sigma (n + 1) := by
    intro n
    unfold wnPair
    rw [Int.cast_neg, Int.cast_natCast, mul_neg]
  simp only [e] at h3
  have e2 : (∫ t in (0 : ℝ)..theta, wrappedNormal mu sigma t) + wnDelta theta mu sigma (2 * π * ((0 : ℤ) : ℝ)) -
      (wnDelta theta mu sigma (2 * π * (((0 : ℕ) : ℤ) : ℝ)) + wnDelta theta mu sigma (2 * π * ((-((0 : ℕ) : ℤ) : ℤ) : ℝ)))
      = (∫ t in (0 : ℝ)..theta, wrappedNormal mu sigma t) - wnDelta theta mu sigma 0 := by
    simp
  rwa [e2] at h3

include h1 hm0 hm1 in
/-- What is left out after pass `K`. -/
lemma wnPair_tail (K : ℕ) (hK : 1 ≤ K) :
    0 ≤ (∫ t in (0 : ℝ)..theta, wrappedNormal mu sigma t) - (wnDelta theta mu sigma 0 + ∑ j ∈ Finset.range K, wnPair theta mu sigma (j + 1)) ∧
    (∫ t in (0 : ℝ)..theta, wrappedNormal mu sigma t) - (wnDelta theta mu sigma 0 + ∑ j ∈ Finset.range K, wnPair theta mu sigma (j + 1))
      ≤ wnPair theta mu sigma K * (wnRatio sigma / (1 - wnRatio sigma)) := by
  have h := (hasSum_nat_add_iff' K).mpr (wnPair_hasSum (mu := mu) hs h0 h1)
  rw [sub_sub] at h
  refine ⟨h.nonneg fun j => wnPair_nonneg hs h0 _, ?_⟩
  have hg := ((hasSum_geometric_of_lt_one (wnRatio_pos sigma).le (wnRatio_lt hs)).mul_left (wnPair theta mu sigma K * wnRatio sigma))
  refine (hasSum_le (fun j => ?_) h hg).trans (le_of_eq ?_)
  · have := wnPair_pow hs h0 h1 hm0 hm1 K hK (j + 1)
    rw [show j + K + 1 = K + (j + 1) by ring]
    calc _ ≤ _ := this
      _ = _ := by ring
  · rw [div_eq_mul_inv]; ring

end

lemma wnLoop_eq (theta mu sigma : ℝ) (n : ℕ) : ∀ (k : ℕ) (acc : ℝ), ∃ K, k ≤ K ∧
    wnLoop theta mu sigma (n + 1) k acc = acc + ∑ j ∈ Finset.Ico k (K + 1), wnPair theta mu sigma j ∧
    (K = k + n ∨ max |wnDelta theta mu sigma (2 * π * K)| |wnDelta theta mu sigma (-(2 * π * K))| ≤ 1 / 10 ^ 13) := by
  induction n with
  | zero =>
    intro k acc
    refine ⟨k, le_rfl, ?_, Or.inl rfl⟩
    rw [Nat.Ico_succ_singleton, Finset.sum_singleton]
    unfold wnLoop
    simp only
    split_ifs
    · unfold wnLoop
      rfl
    · rfl
  | succ n ih =>
    intro k acc
    by_cases h : 1 / 10 ^ 13 < max |wnDelta theta mu sigma (2 * π * k)| |wnDelta theta mu sigma (-(2 * π * k))|
    · obtain ⟨K, hK, he, hd⟩ := ih (k + 1) (acc + wnPair theta mu sigma k)
      refine ⟨K, by omega, ?_, hd.imp (fun h => by omega) id⟩
      unfold wnLoop
      simp only
      rw [if_pos h]
      refine he.trans ?_
      rw [Finset.sum_eq_sum_Ico_succ_bot (by omega : k < K + 1)]
      ring
    · refine ⟨k, le_rfl, ?_, Or.inr (not_lt.mp h)⟩
      rw [Nat.Ico_succ_singleton, Finset.sum_singleton]
      unfold wnLoop
      simp only
      rw [if_neg h]
      rfl

lemma wn_integral_mem {theta mu sigma : ℝ} (hs : 0 < sigma) (h0 : 0 ≤ theta) (h1 : theta ≤ 2 * π) :
    0 ≤ (∫ t in (0 : ℝ)..theta, wrappedNormal mu sigma t) ∧ (∫ t in (0 : ℝ)..theta, wrappedNormal mu sigma t) ≤ 1 := by
  have hi := fun a b => (wn_continuous hs mu).intervalIntegrable (μ := volume) a b
  refine ⟨intervalIntegral.integral_nonneg h0 fun t _ => (wn_pos hs mu t).le, ?_⟩
  have h2 := intervalIntegral.integral_add_adjacent_intervals (hi 0 theta) (hi theta (2 * π))
  rw [wn_mass hs] at h2
  linarith [intervalIntegral.integral_nonneg (μ := volume) h1 fun t _ => (wn_pos hs mu t).le]

/-- The error of the wrapped sums, for `sigma` up to 7.5. -/
lemma wnWrapped_error {theta mu sigma : ℝ} (hs : 0 < sigma) (hs1 : sigma ≤ 75 / 10) (h0 : 0 ≤ theta) (h1 : theta ≤ 2 * π)
    (hm0 : 0 ≤ mu) (hm1 : mu ≤ 2 * π) :
    |wnWrapped theta mu sigma - ∫ t in (0 : ℝ)..theta, wrappedNormal mu sigma t| ≤ 1 / 2 * (1 / 10 ^ 12) := by
  obtain ⟨K, hK, he, hd⟩ := wnLoop_eq theta mu sigma 499 1 (wnDelta theta mu sigma 0)
  have hmem := wn_integral_mem (mu := mu) hs h0 h1
  obtain ⟨I, hI⟩ : ∃ I, I = ∫ t in (0 : ℝ)..theta, wrappedNormal mu sigma t := ⟨_, rfl⟩
  have ht := wnPair_tail hs h0 h1 hm0 hm1 K hK
  rw [← hI] at hmem ht ⊢
  have hsum : ∑ j ∈ Finset.Ico 1 (K + 1), wnPair theta mu sigma j = ∑ j ∈ Finset.range K, wnPair theta mu sigma (j + 1) := by
    rw [Finset.sum_Ico_eq_sum_range]
    exact Finset.sum_congr (by simp) fun j _ => by rw [add_comm]
  rw [hsum] at he
  have hr : wnRatio sigma ≤ 71 / 100 := by
    unfold wnRatio
    have hpi := pi_gt_d2
    have h2 : (35 / 100 : ℝ) ≤ 2 * π ^ 2 / sigma ^ 2 := by
      rw [le_div_iff₀ (by positivity)]
      nlinarith
    calc _ ≤ exp (-(35 / 100)) := exp_le_exp.mpr (by linarith)
      _ ≤ 71 / 100 := by
        rw [exp_neg, inv_le_comm₀ (exp_pos _) (by norm_num)]
        have := quadratic_le_exp_of_nonneg (by norm_num : (0 : ℝ) ≤ 35 / 100)
        exact le_trans (by norm_num) this
  have hr0 := wnRatio_pos sigma
  have hq : wnRatio sigma / (1 - wnRatio sigma) ≤ 25 / 10 := by
    rw [div_le_iff₀ (by linarith)]; linarith
  have hq0 : 0 ≤ wnRatio sigma / (1 - wnRatio sigma) := div_nonneg hr0.le (by linarith)
  have hpair : wnPair theta mu sigma K ≤ 2 * (1 / 10 ^ 13) := by
    rcases hd with hd | hd
    · have hp := wnPair_pow hs h0 h1 hm0 hm1 1 le_rfl 499
      have h1' : wnPair theta mu sigma 1 ≤ 1 := by
        have ht1 := wnPair_tail hs h0 h1 hm0 hm1 1 le_rfl
        rw [← hI, Finset.sum_range_one] at ht1
        have := wnDelta_nonneg (mu := mu) (shift := 0) hs h0
        simp only [zero_add] at ht1
        linarith [ht1.1, hmem.2]
      rw [hd]
      have hpow : wnRatio sigma ^ 499 ≤ (71 / 100) ^ 499 := pow_le_pow_left₀ hr0.le hr 499
      have hpow2 : ((71 : ℝ) / 100) ^ 499 ≤ (71 / 100) ^ 100 := pow_le_pow_of_le_one (by norm_num) (by norm_num) (by norm_num)
      have h3 : ((71 : ℝ) / 100) ^ 100 ≤ 1 / 10 ^ 13 := by norm_num
      have := wnPair_nonneg (mu := mu) hs h0 1
      have h4 : wnRatio sigma ^ 499 * wnPair theta mu sigma 1 ≤ 1 / 10 ^ 13 * 1 :=
        mul_le_mul (hpow.trans (hpow2.trans h3)) h1' this (by positivity)
      linarith
    · have a := (le_abs_self _).trans ((le_max_left _ _).trans hd)
      have b := (le_abs_self _).trans ((le_max_right _ _).trans hd)
      unfold wnPair
      linarith
  have hpn := wnPair_nonneg (mu := mu) hs h0 K
  have herr : wnPair theta mu sigma K * (wnRatio sigma / (1 - wnRatio sigma)) ≤ 1 / 2 * (1 / 10 ^ 12) :=
    (mul_le_mul hpair hq hq0 (by positivity)).trans (by norm_num)
  unfold wnWrapped
  rw [show (500 : ℕ) = 499 + 1 by norm_num, he]
  obtain ⟨L, hL⟩ : ∃ L, L = wnDelta theta mu sigma 0 + ∑ j ∈ Finset.range K, wnPair theta mu sigma (j + 1) := ⟨_, rfl⟩
  rw [← hL] at ht ⊢
  have hLn : 0 ≤ L := by
    rw [hL]
    exact add_nonneg (wnDelta_nonneg hs h0) (Finset.sum_nonneg fun j _ => wnPair_nonneg hs h0 _)
  unfold clip
  rw [max_eq_left hLn, min_eq_left (by linarith), abs_le]
  constructor <;> linarith

end Verif
