import Mathlib.Analysis.Calculus.Deriv.Pow
import Mathlib.Analysis.Calculus.Deriv.Inv
import Mathlib.Analysis.Calculus.Deriv.MeanValue
import Mathlib.Analysis.SpecialFunctions.Pow.Deriv
import Mathlib.Data.Nat.Choose.Sum

/-!
Truncated powers and their alternating binomial sums (B-splines). Used for the p value of the range
test.
-/

namespace Verif

open Finset

set_option autoImplicit false

/-- Truncated power `x₊ᵐ` (with `0₊⁰ = 1`). -/
noncomputable def pp (m : ℕ) (x : ℝ) : ℝ := if 0 ≤ x then x ^ m else 0

lemma pp_of_nonneg {m : ℕ} {x : ℝ} (h : 0 ≤ x) : pp m x = x ^ m := if_pos h
lemma pp_of_neg {m : ℕ} {x : ℝ} (h : x < 0) : pp m x = 0 := if_neg (not_le.2 h)

lemma pp_succ (m : ℕ) (x : ℝ) : pp (m + 1) x = x * pp m x := by
  unfold pp; split_ifs <;> ring

/-- `Σ_k (-1)^k C(n+1,k) (x-k)₊ⁿ`. -/
noncomputable def spl (n : ℕ) (x : ℝ) : ℝ :=
  ∑ k ∈ range (n + 2), (-1 : ℝ) ^ k * ((n + 1).choose k) * pp n (x - k)

lemma pascal_sum (f : ℕ → ℝ) (n : ℕ) :
    ∑ k ∈ range (n + 3), (-1 : ℝ) ^ k * ((n + 2).choose k) * f k
      = ∑ k ∈ range (n + 2), (-1 : ℝ) ^ k * ((n + 1).choose k) * f k
        - ∑ k ∈ range (n + 2), (-1 : ℝ) ^ k * ((n + 1).choose k) * f (k + 1) := by
  have h1 : ∑ k ∈ range (n + 2), (-1 : ℝ) ^ k * ((n + 1).choose k) * f k
      = ∑ k ∈ range (n + 3), (-1 : ℝ) ^ k * ((n + 1).choose k) * f k := by
    rw [sum_range_succ _ (n + 2), Nat.choose_eq_zero_of_lt (by omega)]; simp
  rw [h1, sum_range_succ' _ (n + 2), sum_range_succ' _ (n + 2)]
  have : ∀ k ∈ range (n + 2), (-1 : ℝ) ^ (k + 1) * ((n + 2).choose (k + 1)) * f (k + 1)
      = (-1 : ℝ) ^ (k + 1) * ((n + 1).choose (k + 1)) * f (k + 1)
        - (-1 : ℝ) ^ k * ((n + 1).choose k) * f (k + 1) := by
    intro k _
    rw [Nat.choose_succ_succ' (n + 1) k]; push_cast; ring
  rw [sum_congr rfl this, sum_sub_distrib]
  simp; ring

lemma spl_rec (n : ℕ) (x : ℝ) :
    spl (n + 1) x = x * spl n x + ((n : ℝ) + 2 - x) * spl n (x - 1) := by
  unfold spl
  have h1 : ∑ k ∈ range (n + 1 + 2), (-1 : ℝ) ^ k * ((n + 1 + 1).choose k) * pp (n + 1) (x - k)
      = ∑ k ∈ range (n + 3), (-1 : ℝ) ^ k * ((n + 2).choose k) * (x * pp n (x - k))
        - ∑ k ∈ range (n + 3), (-1 : ℝ) ^ k * (k * (n + 2).choose k) * pp n (x - k) := by
    rw [← sum_sub_distrib]
    refine sum_congr rfl fun k _ => ?_
    rw [pp_succ]; push_cast; ring
  have h2 : ∑ k ∈ range (n + 3), (-1 : ℝ) ^ k * (k * (n + 2).choose k) * pp n (x - k)
      = -((n : ℝ) + 2) * ∑ k ∈ range (n + 2), (-1 : ℝ) ^ k * ((n + 1).choose k) * pp n (x - 1 - k) := by
    rw [sum_range_succ', mul_sum]
    simp only [Nat.cast_zero, zero_mul, mul_zero, add_zero]
    refine sum_congr rfl fun k _ => ?_
    have : ((k + 1 : ℕ) : ℝ) * ((n + 2).choose (k + 1) : ℝ) = ((n : ℝ) + 2) * ((n + 1).choose k : ℝ) := by
      have := Nat.add_one_mul_choose_eq (n + 1) k
      have h : ((n + 1 + 1 : ℕ) : ℝ) * ((n + 1).choose k : ℝ) = ((n + 1 + 1).choose (k + 1) : ℝ) * ((k + 1 : ℕ) : ℝ) := by
        exact_mod_cast this
      rw [mul_comm, ← h]; push_cast; ring
    rw [this, show x - ((k + 1 : ℕ) : ℝ) = x - 1 - k by push_cast; ring]
    ring
  rw [h1, h2, pascal_sum (fun k => x * pp n (x - k)) n]
  have h3 : ∑ k ∈ range (n + 2), (-1 : ℝ) ^ k * ((n + 1).choose k) * (x * pp n (x - k))
      = x * ∑ k ∈ range (n + 2), (-1 : ℝ) ^ k * ((n + 1).choose k) * pp n (x - k) := by
    rw [mul_sum]; exact sum_congr rfl fun k _ => by ring
  have h4 : ∑ k ∈ range (n + 2), (-1 : ℝ) ^ k * ((n + 1).choose k) * (x * pp n (x - ((k + 1 : ℕ) : ℝ)))
      = x * ∑ k ∈ range (n + 2), (-1 : ℝ) ^ k * ((n + 1).choose k) * pp n (x - 1 - k) := by
    rw [mul_sum]
    refine sum_congr rfl fun k _ => ?_
    rw [show x - ((k + 1 : ℕ) : ℝ) = x - 1 - k by push_cast; ring]; ring
  rw [h3, h4]; ring

lemma spl_zero (x : ℝ) : spl 0 x = pp 0 x - pp 0 (x - 1) := by
  unfold spl; simp [sum_range_succ]; ring

lemma spl_of_neg {n : ℕ} {x : ℝ} (h : x < 0) : spl n x = 0 := by
  unfold spl
  refine sum_eq_zero fun k _ => ?_
  rw [pp_of_neg (by have : (0 : ℝ) ≤ k := by positivity
                    linarith)]; simp

lemma spl_of_ge (n : ℕ) : ∀ {x : ℝ}, (n : ℝ) + 1 ≤ x → spl n x = 0 := by
  induction n with
  | zero => intro x h; rw [spl_zero]; simp at h; simp [pp, show 0 ≤ x by linarith, h]
  | succ n ih =>
    intro x h
    push_cast at h
    rw [spl_rec, ih (by linarith), ih (by linarith)]; ring

lemma spl_nonneg (n : ℕ) : ∀ x : ℝ, 0 ≤ spl n x := by
  induction n with
  | zero =>
    intro x; rw [spl_zero]; unfold pp
    split_ifs with h1 h2 h2
    · simp
    · simp
    · linarith
    · simp
  | succ n ih =>
    intro x
    by_cases h0 : x < 0
    · rw [spl_of_neg h0]
    by_cases h1 : (n : ℝ) + 2 ≤ x
    · rw [spl_of_ge (n + 1) (by push_cast; linarith)]
    push Not at h0 h1
    rw [spl_rec]
    have := ih x
    have := ih (x - 1)
    have h2 : 0 ≤ (n : ℝ) + 2 - x := by linarith
    positivity

lemma spl_of_le_one {n : ℕ} {x : ℝ} (h0 : 0 ≤ x) (h1 : x ≤ 1) (hn : n ≠ 0) : spl n x = x ^ n := by
  unfold spl
  rw [sum_range_succ']
  rw [sum_eq_zero]
  · simp [pp_of_nonneg h0]
  · intro k _
    have : pp n (x - ((k + 1 : ℕ) : ℝ)) = 0 := by
      rcases lt_or_ge (x - ((k + 1 : ℕ) : ℝ)) 0 with h | h
      · exact pp_of_neg h
      · have hk : (0 : ℝ) ≤ k := by positivity
        have : x - ((k + 1 : ℕ) : ℝ) = 0 := by push_cast at h ⊢; linarith
        rw [this, pp_of_nonneg le_rfl, zero_pow hn]
    rw [this]; ring

lemma hasDerivAt_pp (m : ℕ) (x : ℝ) : HasDerivAt (pp (m + 2)) (((m : ℝ) + 2) * pp (m + 1) x) x := by
  rcases lt_trichotomy x 0 with h | h | h
  · have : HasDerivAt (fun _ : ℝ => (0 : ℝ)) 0 x := hasDerivAt_const x 0
    rw [pp_of_neg h, mul_zero]
    refine this.congr_of_eventuallyEq ?_
    filter_upwards [Iio_mem_nhds h] with y hy
    exact pp_of_neg hy
  · subst h
    rw [pp_of_nonneg le_rfl, zero_pow (by omega), mul_zero]
    rw [hasDerivAt_iff_isLittleO]
    have h0 : pp (m + 2) 0 = 0 := by rw [pp_of_nonneg le_rfl, zero_pow (by omega)]
    simp only [h0, sub_zero, smul_eq_mul, mul_zero]
    have hb : (fun y : ℝ => pp (m + 2) y) =O[nhds 0] fun y : ℝ => y ^ (m + 2) := by
      apply Asymptotics.isBigO_of_le
      intro y
      unfold pp; split_ifs
      · exact le_rfl
      · simp
    exact hb.trans_isLittleO (Asymptotics.isLittleO_pow_id (by omega))
  · have : HasDerivAt (fun y : ℝ => y ^ (m + 2)) (((m + 2 : ℕ) : ℝ) * x ^ (m + 2 - 1)) x := hasDerivAt_pow _ _
    rw [pp_of_nonneg h.le]
    have e : ((m : ℝ) + 2) * x ^ (m + 1) = ((m + 2 : ℕ) : ℝ) * x ^ (m + 2 - 1) := by
      push_cast; rfl
    rw [e]
    refine this.congr_of_eventuallyEq ?_
    filter_upwards [Ioi_mem_nhds h] with y hy
    exact pp_of_nonneg (le_of_lt hy)

lemma hasDerivAt_spl (n : ℕ) (x : ℝ) :
    HasDerivAt (spl (n + 2)) (((n : ℝ) + 2) * (spl (n + 1) x - spl (n + 1) (x - 1))) x := by
  have h1 : HasDerivAt (spl (n + 2)) (∑ k ∈ range (n + 2 + 2),
      (-1 : ℝ) ^ k * ((n + 2 + 1).choose k) * (((n : ℝ) + 2) * pp (n + 1) (x - k))) x := by
    have e : spl (n + 2) = fun x => ∑ k ∈ range (n + 2 + 2), (-1 : ℝ) ^ k * ((n + 2 + 1).choose k) * pp (n + 2) (x - k) := by
      funext y; rfl
    rw [e]
    refine HasDerivAt.fun_sum fun k _ => ?_
    refine HasDerivAt.const_mul _ ?_
    exact (hasDerivAt_pp n (x - k)).comp_sub_const x k
  convert h1 using 1
  have := pascal_sum (fun k => ((n : ℝ) + 2) * pp (n + 1) (x - k)) (n + 1)
  rw [show n + 2 + 2 = n + 1 + 3 from rfl, show n + 2 + 1 = n + 1 + 2 from rfl, this]
  unfold spl
  rw [mul_sub, mul_sum, mul_sum]
  congr 1
  · exact sum_congr rfl fun k _ => by ring
  · refine sum_congr rfl fun k _ => ?_
    rw [show x - ((k + 1 : ℕ) : ℝ) = x - 1 - k by push_cast; ring]; ring

/-- `spl n x / xⁿ` does not increase with `x > 0`. -/
lemma spl_ratio_antitone (n : ℕ) (hn : n ≠ 0) : AntitoneOn (fun x => spl n x / x ^ n) (Set.Ioi 0) := by
  match n, hn with
  | 1, _ =>
    have hv : ∀ x : ℝ, 0 < x → spl 1 x / x ^ 1 = if x ≤ 1 then 1 else if x ≤ 2 then 2 / x - 1 else 0 := by
      intro x hx
      split_ifs with h1 h2
      · rw [spl_of_le_one hx.le h1 (by norm_num), div_self (by positivity)]
      · rw [spl_rec, spl_zero, spl_zero, pp_of_nonneg hx.le, pp_of_nonneg (by linarith : 0 ≤ x - 1)]
        rcases h2.lt_or_eq with h | h
        · rw [pp_of_neg (by linarith : x - 1 - 1 < 0)]; field_simp; simp
        · subst h; norm_num [pp]
      · rw [spl_of_ge 1 (by push_cast; linarith), zero_div]
    intro x hx y hy hxy
    have hx' : (0 : ℝ) < x := hx
    have hy' : (0 : ℝ) < y := hy
    simp only
    rw [hv x hx', hv y hy']
    split_ifs with a b c d e f
    · exact le_rfl
    · linarith
    · linarith
    · rw [sub_le_iff_le_add, div_le_iff₀ hy']; linarith
    · have := div_le_div_of_nonneg_left (by norm_num : (0 : ℝ) ≤ 2) hx' hxy
      linarith
    · linarith
    · norm_num
    · have : 1 ≤ 2 / x := by rw [le_div_iff₀ hx']; linarith
      linarith
    · exact le_rfl
  | n + 2, _ =>
    have hd : ∀ x : ℝ, 0 < x → HasDerivAt (fun x => spl (n + 2) x / x ^ (n + 2))
        ((((n : ℝ) + 2) * (spl (n + 1) x - spl (n + 1) (x - 1)) * x ^ (n + 2)
          - spl (n + 2) x * (((n + 2 : ℕ) : ℝ) * x ^ (n + 2 - 1))) / (x ^ (n + 2)) ^ 2) x := by
      intro x hx
      exact (hasDerivAt_spl n x).div (hasDerivAt_pow _ _) (by positivity)
    refine antitoneOn_of_deriv_nonpos (convex_Ioi 0) ?_ ?_ ?_
    · intro x hx; exact (hd x hx).continuousAt.continuousWithinAt
    · intro x hx; rw [interior_Ioi] at hx; exact (hd x hx).differentiableAt.differentiableWithinAt
    · intro x hx
      rw [interior_Ioi] at hx
      have hx' : (0 : ℝ) < x := hx
      rw [(hd x hx').deriv]
      apply div_nonpos_of_nonpos_of_nonneg _ (by positivity)
      have e : x ^ (n + 2 - 1) = x ^ (n + 1) := rfl
      rw [e, spl_rec (n + 1) x]
      have h1 := spl_nonneg (n + 1) (x - 1)
      have h2 : 0 < x ^ (n + 1) := by positivity
      have : ((n : ℝ) + 2) * (spl (n + 1) x - spl (n + 1) (x - 1)) * x ^ (n + 2)
          - (x * spl (n + 1) x + (((n + 1 : ℕ) : ℝ) + 2 - x) * spl (n + 1) (x - 1)) * (((n + 2 : ℕ) : ℝ) * x ^ (n + 1))
          = -(((n : ℝ) + 2) * ((n : ℝ) + 3) * (spl (n + 1) (x - 1) * x ^ (n + 1))) := by
        push_cast; ring
      rw [this]
      have : 0 ≤ ((n : ℝ) + 2) * ((n : ℝ) + 3) * (spl (n + 1) (x - 1) * x ^ (n + 1)) := by positivity
      linarith

lemma spl_le_pow {n : ℕ} (hn : n ≠ 0) {x : ℝ} (hx : 0 ≤ x) : spl n x ≤ x ^ n := by
  rcases le_total x 1 with h | h
  · rw [spl_of_le_one hx h hn]
  · have := spl_ratio_antitone n hn (Set.mem_Ioi.2 (one_pos : (0 : ℝ) < 1))
      (Set.mem_Ioi.2 (lt_of_lt_of_le one_pos h)) h
    simp only [spl_of_le_one zero_le_one le_rfl hn, one_pow, div_one] at this
    rwa [div_le_one (by positivity)] at this

end Verif
