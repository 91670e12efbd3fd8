import Verif.Model.HypUnif
import Verif.Lemmas.Spline
import Verif.Props.Range

/-!
# C91: the circular range test
-/

namespace Verif.Props

open Real Spec

set_option autoImplicit false

lemma sum_range_extend {M n : ℕ} (h : M ≤ n) (f : ℕ → ℝ) :
    ∑ j ∈ Finset.range M, f j = ∑ j ∈ Finset.range n, if j < M then f j else 0 := by
  rw [← Finset.sum_filter]
  congr 1
  ext j; simp; omega

/-- The series is one minus a B-spline value. -/
lemma rangeSeries_eq {n : ℕ} (hn : 2 ≤ n) {r : ℝ} (h0 : 0 ≤ r) (h1 : r ≤ 2 * π * (1 - 1 / n)) :
    rangeSeries n r = 1 - spl (n - 1) (1 / (1 - r / (2 * π))) / (1 / (1 - r / (2 * π))) ^ (n - 1) := by
  obtain ⟨m, rfl⟩ : ∃ m, n = m + 2 := ⟨n - 2, by omega⟩
  have hπ := two_pi_pos'
  set q := 1 - r / (2 * π) with hq
  have hnR : (0 : ℝ) < ((m + 2 : ℕ) : ℝ) := by positivity
  have hq1 : 1 / ((m + 2 : ℕ) : ℝ) ≤ q := by
    have : r / (2 * π) ≤ 1 - 1 / ((m + 2 : ℕ) : ℝ) := by rw [div_le_iff₀ hπ]; linarith
    linarith
  have hq0 : 0 < q := lt_of_lt_of_le (by positivity) hq1
  have hX : 1 / q ≤ ((m + 2 : ℕ) : ℝ) := by
    rw [div_le_iff₀ hq0]
    rw [div_le_iff₀ hnR] at hq1
    linarith
  have hfl : ⌊1 / q⌋.toNat ≤ m + 2 := by
    have : ⌊1 / q⌋ ≤ ((m + 2 : ℕ) : ℤ) := by
      rw [← Int.floor_natCast (R := ℝ) (m + 2)]; exact Int.floor_mono hX
    omega
  unfold rangeSeries
  simp only [← hq]
  rw [show m + 2 - 1 = m + 1 from rfl]
  have e1 : ((List.range ⌊1 / q⌋.toNat).map fun j : ℕ =>
      (-1 : ℝ) ^ j * ((m + 2).choose (j + 1)) * (1 - ((j : ℝ) + 1) * q) ^ (m + 1)).sum
      = ∑ j ∈ Finset.range ⌊1 / q⌋.toNat,
        (-1 : ℝ) ^ j * ((m + 2).choose (j + 1)) * (1 - ((j : ℝ) + 1) * q) ^ (m + 1) := by
    rw [Finset.sum_eq_multiset_sum]; rfl
  rw [e1, sum_range_extend hfl]
  have e2 : spl (m + 1) (1 / q) / (1 / q) ^ (m + 1)
      = 1 - ∑ j ∈ Finset.range (m + 2), if j < ⌊1 / q⌋.toNat then
        (-1 : ℝ) ^ j * ((m + 2).choose (j + 1)) * (1 - ((j : ℝ) + 1) * q) ^ (m + 1) else 0 := by
    unfold spl
    rw [Finset.sum_range_succ', add_div, Finset.sum_div]
    have hp0 : pp (m + 1) (1 / q - ((0 : ℕ) : ℝ)) = (1 / q) ^ (m + 1) := by
      rw [Nat.cast_zero, sub_zero, pp_of_nonneg (by positivity)]
    rw [hp0]
    simp only [pow_zero, Nat.choose_zero_right, Nat.cast_one, one_mul]
    rw [div_self (by positivity), add_comm, sub_eq_add_neg, ← Finset.sum_neg_distrib]
    congr 1
    refine Finset.sum_congr rfl fun j _ => ?_
    have hiff : j < ⌊1 / q⌋.toNat ↔ 0 ≤ 1 / q - ((j + 1 : ℕ) : ℝ) := by
      rw [Int.lt_toNat, ← Int.add_one_le_iff, Int.le_floor, sub_nonneg]
      push_cast; rfl
    split_ifs with h
    · rw [pp_of_nonneg (hiff.1 h)]
      have : 1 - ((j : ℝ) + 1) * q = q * (1 / q - ((j + 1 : ℕ) : ℝ)) := by
        push_cast; field_simp
      have hqq : q * (1 / q) = 1 := by field_simp
      have h2 : ∀ y : ℝ, y / (1 / q) ^ (m + 1) = q ^ (m + 1) * y := fun y => by
        rw [div_eq_iff (by positivity)]
        have : q ^ (m + 1) * (1 / q) ^ (m + 1) = 1 := by rw [← mul_pow, hqq, one_pow]
        linear_combination (-y) * this
      rw [this, mul_pow, h2, pow_succ (-1 : ℝ) j]
      ring
    · rw [pp_of_neg (not_le.1 fun hh => h (hiff.2 hh))]; simp
  rw [e2]; ring

lemma rangeTest_ok {alpha : List ℝ} {r p : ℝ} (h : rangeTest alpha = .ok (r, p)) :
    alpha ≠ [] ∧ circRange alpha = .ok r ∧ p = rangeSeries alpha.length r := by
  unfold rangeTest at h
  split_ifs at h with h0 h1
  cases hc : circRange alpha with
  | error e => rw [hc] at h; cases h
  | ok r' =>
    rw [hc] at h
    simp only [Except.map, Except.ok.injEq, Prod.mk.injEq] at h
    exact ⟨by simpa using h0, by rw [h.1], by rw [← h.1]; exact h.2.symm⟩

/-- **C91.** A non-empty sample of radians in `[-2π, 2π]` is accepted; the statistic is the length of
the shortest arc that contains all observations. -/
theorem C91_range_test (alpha : List ℝ) (hne : alpha ≠ []) (hx : ∀ a ∈ alpha, |a| ≤ 2 * π) :
    ∃ r p, rangeTest alpha = .ok (r, p) ∧ (∃ a, ∀ v ∈ alpha, OnArcFrom v a r) ∧
      ∀ a L, (∀ v ∈ alpha, OnArcFrom v a L) → r ≤ L := by
  obtain ⟨L, h1, h2, h3⟩ := C26_range_shortest alpha hne
  refine ⟨L, rangeSeries alpha.length L, ?_, h2, h3⟩
  unfold rangeTest
  rw [if_neg (by simpa using hne), if_neg, h1]
  · rfl
  · rintro ⟨a, ha, hc⟩
    have := hx a ha
    have : (0 : ℝ) < 1 / 10 ^ 8 := by positivity
    linarith

/-- The p value is a number between 0 and 1. -/
theorem C91_range_test_pvalue (alpha : List ℝ) (r p : ℝ) (h : rangeTest alpha = .ok (r, p)) :
    0 ≤ p ∧ p ≤ 1 := by
  obtain ⟨hne, hr, rfl⟩ := rangeTest_ok h
  obtain ⟨h0, h1⟩ := C26_range_bounds alpha r hr
  have hπ := two_pi_pos'
  have hl : alpha.length ≠ 0 := by simpa using hne
  by_cases hn : alpha.length = 1
  · rw [hn] at h1 ⊢
    have : r = 0 := by norm_num at h1; linarith
    subst this
    unfold rangeSeries
    norm_num
  · rw [rangeSeries_eq (by omega) h0 h1]
    have hq0 : 0 < 1 - r / (2 * π) := by
      have : r / (2 * π) < 1 := by
        rw [div_lt_one hπ]
        have hnR : (0 : ℝ) < alpha.length := by exact_mod_cast Nat.pos_of_ne_zero hl
        have : 0 < 2 * π * (1 / alpha.length) := by positivity
        linarith
      linarith
    set X := 1 / (1 - r / (2 * π)) with hX
    have hX0 : 0 < X := by positivity
    have a1 := spl_nonneg (alpha.length - 1) X
    have a2 := spl_le_pow (n := alpha.length - 1) (by omega) hX0.le
    have a3 : spl (alpha.length - 1) X / X ^ (alpha.length - 1) ≤ 1 := by
      rw [div_le_one (by positivity)]; exact a2
    have a4 : 0 ≤ spl (alpha.length - 1) X / X ^ (alpha.length - 1) := by positivity
    constructor <;> linarith

/-- Between samples of the same size, the one with the smaller range never gets the larger p value. -/
theorem C91_range_test_monotone (alpha beta : List ℝ) (r p r' p' : ℝ) (hl : alpha.length = beta.length)
    (h : rangeTest alpha = .ok (r, p)) (h' : rangeTest beta = .ok (r', p')) (hr : r ≤ r') : p ≤ p' := by
  obtain ⟨hne, hc, rfl⟩ := rangeTest_ok h
  obtain ⟨hne', hc', rfl⟩ := rangeTest_ok h'
  obtain ⟨h0, h1⟩ := C26_range_bounds alpha r hc
  obtain ⟨h0', h1'⟩ := C26_range_bounds beta r' hc'
  have hπ := two_pi_pos'
  have hl0 : alpha.length ≠ 0 := by simpa using hne
  rw [← hl] at h1' ⊢
  by_cases hn : alpha.length = 1
  · rw [hn] at h1 h1'
    have e1 : r = 0 := by norm_num at h1; linarith
    have e2 : r' = 0 := by norm_num at h1'; linarith
    rw [e1, e2]
  · rw [rangeSeries_eq (by omega) h0 h1, rangeSeries_eq (by omega) h0' h1']
    have hnR : (0 : ℝ) < alpha.length := by exact_mod_cast Nat.pos_of_ne_zero hl0
    have hpos : 0 < 2 * π * (1 / (alpha.length : ℝ)) := by positivity
    have hlt : r' < 2 * π := by linarith
    have hq0' : 0 < 1 - r' / (2 * π) := by
      have : r' / (2 * π) < 1 := by rw [div_lt_one hπ]; exact hlt
      linarith
    have hle : 1 - r' / (2 * π) ≤ 1 - r / (2 * π) := by
      have := div_le_div_of_nonneg_right hr hπ.le
      linarith
    have hq0 : 0 < 1 - r / (2 * π) := lt_of_lt_of_le hq0' hle
    have hX : 1 / (1 - r / (2 * π)) ≤ 1 / (1 - r' / (2 * π)) := one_div_le_one_div_of_le hq0' hle
    have := spl_ratio_antitone (alpha.length - 1) (by omega)
      (Set.mem_Ioi.2 (one_div_pos.2 hq0)) (Set.mem_Ioi.2 (one_div_pos.2 hq0')) hX
    simp only at this
    linarith

/-- If the observations fit in less than a half circle, the p value is `n (r/2π)^(n-1)`. -/
theorem C91_range_test_half (alpha : List ℝ) (r p : ℝ) (h : rangeTest alpha = .ok (r, p)) (hr : r < π) :
    p = alpha.length * (r / (2 * π)) ^ (alpha.length - 1) := by
  obtain ⟨hne, hc, rfl⟩ := rangeTest_ok h
  obtain ⟨h0, -⟩ := C26_range_bounds alpha r hc
  have hπ := two_pi_pos'
  unfold rangeSeries
  simp only
  have h2 : r / (2 * π) < 1 / 2 := by rw [div_lt_iff₀ hπ]; linarith
  have h3 : 0 ≤ r / (2 * π) := div_nonneg h0 hπ.le
  have hq : 0 < 1 - r / (2 * π) := by linarith
  have : ⌊1 / (1 - r / (2 * π))⌋ = 1 := by
    rw [Int.floor_eq_iff]
    constructor
    · push_cast; rw [le_div_iff₀ hq]; linarith
    · push_cast; rw [div_lt_iff₀ hq]; linarith
  rw [this]
  simp

/-- Turning all observations, or listing them in another order, does not change the result (as long as
the angles stay in the accepted range). -/
theorem C91_range_test_rotate (alpha beta : List ℝ) (t : ℝ) (hb : ∀ a ∈ beta, |a| ≤ 2 * π)
    (ha : ∀ a ∈ alpha, |a| ≤ 2 * π)
    (hr : ∃ z, List.Forall₂ (fun a b => SameDir b (a + t)) alpha z ∧ z.Perm beta) :
    rangeTest beta = rangeTest alpha := by
  obtain ⟨z, hz, hp⟩ := hr
  have hlen : beta.length = alpha.length := by rw [← hp.length_eq, hz.length_eq]
  have hlim : ∀ l : List ℝ, (∀ a ∈ l, |a| ≤ 2 * π) → ¬ ∃ a ∈ l, 2 * π + 1 / 10 ^ 8 < |a| := by
    rintro l hl ⟨a, ha, hc⟩
    have := hl a ha
    have : (0 : ℝ) < 1 / 10 ^ 8 := by positivity
    linarith
  have hcr : circRange beta = circRange alpha := by
    rw [← C26_range_rotate alpha t]
    refine C26_range_perm_congr beta z (alpha.map (· + t)) hp.symm ?_
    rw [List.forall₂_map_right_iff]
    exact List.Forall₂.flip hz
  unfold rangeTest
  rw [if_neg (hlim _ hb), if_neg (hlim _ ha), hlen, hcr]

/-- Empty samples and angles outside `[-2π, 2π]` (for example degrees) are refused. -/
theorem C91_range_test_refused (alpha : List ℝ)
    (h : alpha = [] ∨ ∃ a ∈ alpha, 2 * π + 1 / 10 ^ 8 < |a|) : rangeTest alpha = .error .valueError := by
  unfold rangeTest
  by_cases h0 : alpha.length = 0
  · rw [if_pos h0]
  · rw [if_neg h0, if_pos]
    rcases h with h | h
    · simp [h] at h0
    · exact h

/-- Two observations a quarter turn apart. -/
example : ∃ r p, rangeTest [0, π / 2] = .ok (r, p) ∧ 0 ≤ p ∧ p ≤ 1 := by
  have hπ := Real.pi_pos
  obtain ⟨r, p, h, -⟩ := C91_range_test [0, π / 2] (by simp) (by
    intro a ha; simp at ha; rcases ha with rfl | rfl
    · simp; linarith
    · rw [abs_of_pos (by linarith)]; linarith)
  exact ⟨r, p, h, C91_range_test_pvalue _ r p h⟩

end Verif.Props
