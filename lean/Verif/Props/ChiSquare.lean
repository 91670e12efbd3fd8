import Verif.Model.HypSym
import Mathlib.Algebra.Order.BigOperators.Group.List
import Mathlib.Algebra.BigOperators.Ring.List
import Mathlib.Tactic.Linarith
import Mathlib.Tactic.FieldSimp

/-!
# C114: the chi-square test for grouped data
-/

set_option autoImplicit false

namespace Verif.Props

open Real Verif

/-- No bins, or a negative frequency: refused. -/
theorem C114_refused (w : List ℝ) (sf : ℝ → ℕ → ℝ) :
    chisquareTest w sf = .error .valueError ↔ w = [] ∨ ∃ x ∈ w, x < 0 := by
  unfold chisquareTest
  by_cases h : w = []
  · simp [h]
  · rw [if_neg h]
    by_cases h' : ∃ x ∈ w, x < 0
    · have : (w.any fun x => decide (x < 0)) = true := by simpa using h'
      rw [if_pos this]
      simp [h']
    · have : ¬ (w.any fun x => decide (x < 0)) = true := by simpa using h'
      rw [if_neg this]
      simp only [h, h', or_self, iff_false]
      exact fun e => by cases e

private lemma sum_sq_dev (w : List ℝ) (e : ℝ) (he : e ≠ 0) :
    (w.map fun x => (x - e) ^ 2 / e).sum
      = (w.map fun x => x ^ 2).sum / e - 2 * w.sum + w.length * e := by
  induction w with
  | nil => simp
  | cons x w ih =>
    simp only [List.map_cons, List.sum_cons, List.length_cons, ih]
    push_cast
    field_simp
    ring

private lemma sum_pos_of (w : List ℝ) (h0 : ∀ x ∈ w, 0 ≤ x) (hN : w.sum ≠ 0) : 0 < w.sum :=
  lt_of_le_of_ne (List.sum_nonneg h0) (Ne.symm hN)

private lemma length_pos_of (w : List ℝ) (hN : w.sum ≠ 0) : (0 : ℝ) < w.length := by
  have : w ≠ [] := by rintro rfl; simp at hN
  exact_mod_cast List.length_pos_iff.2 this

/-- **The statistic and the p-value.** For `k` bins with frequencies `w ≥ 0` of total `N ≠ 0`, the
statistic is `k/N·Σw² - N`, and the p-value is the tail of the chi-square distribution with `k - 1`
degrees of freedom. -/
theorem C114_statistic (w : List ℝ) (h0 : ∀ x ∈ w, 0 ≤ x) (hN : w.sum ≠ 0) (sf : ℝ → ℕ → ℝ)
    (X : ℝ) (hX : X = w.length / w.sum * (w.map fun x => x ^ 2).sum - w.sum) :
    chisquareTest w sf = .ok (some X, some (sf X (w.length - 1))) := by
  have hl := length_pos_of w hN
  have hne : w ≠ [] := by rintro rfl; simp at hN
  have hneg : ¬ (w.any fun x => decide (x < 0)) = true := by
    simpa using h0
  have he : w.sum / w.length ≠ 0 := div_ne_zero hN hl.ne'
  have key : (w.map fun x => (x - w.sum / w.length) ^ 2 / (w.sum / w.length)).sum = X := by
    rw [sum_sq_dev w _ he, hX]
    field_simp
    ring
  unfold chisquareTest chisquare
  rw [if_neg hne, if_neg hneg]
  dsimp only
  rw [if_neg he, key]

/-- Three bins with `2, 3, 7`: the statistic is `3/12·62 - 12 = 3.5`. -/
example (sf : ℝ → ℕ → ℝ) : chisquareTest [2, 3, 7] sf = .ok (some 3.5, some (sf 3.5 2)) :=
  C114_statistic [2, 3, 7] (by simp) (by norm_num) sf 3.5 (by norm_num)

/-- Bins that are all empty give `nan` for statistic and p-value, not an error. -/
theorem C114_all_zero (w : List ℝ) (hne : w ≠ []) (h0 : ∀ x ∈ w, x = 0) (sf : ℝ → ℕ → ℝ) :
    chisquareTest w sf = .ok (none, none) := by
  have hs : w.sum = 0 := List.sum_eq_zero h0
  have hneg : ¬ (w.any fun x => decide (x < 0)) = true := by
    simpa using fun x hx => (h0 x hx).ge
  unfold chisquareTest chisquare
  rw [if_neg hne, if_neg hneg]
  simp [hs]

private lemma result_eq (w : List ℝ) (sf : ℝ → ℕ → ℝ) (X : ℝ) (p : Option ℝ)
    (h : chisquareTest w sf = .ok (some X, p)) :
    (∀ x ∈ w, 0 ≤ x) ∧ w.sum ≠ 0 ∧ X = w.length / w.sum * (w.map fun x => x ^ 2).sum - w.sum ∧
      p = some (sf X (w.length - 1)) := by
  have h1 : ¬ (w = [] ∨ ∃ x ∈ w, x < 0) := by
    rw [← C114_refused w sf, h]; exact fun e => by cases e
  push Not at h1
  have h0 := h1.2
  have hN : w.sum ≠ 0 := by
    intro hs
    have : ∀ x ∈ w, x = 0 := by
      intro x hx
      have := List.single_le_sum h0 x hx
      exact le_antisymm (by linarith) (h0 x hx)
    rw [C114_all_zero w h1.1 this] at h
    cases h
  refine ⟨h0, hN, ?_⟩
  rw [C114_statistic w h0 hN sf _ rfl] at h
  simp only [Except.ok.injEq, Prod.mk.injEq, Option.some.injEq] at h
  obtain ⟨h2, h3⟩ := h
  exact ⟨h2.symm, by rw [← h3, ← h2]⟩

private lemma sum_sq_le (w : List ℝ) (h0 : ∀ x ∈ w, 0 ≤ x) :
    (w.map fun x => x ^ 2).sum ≤ w.sum ^ 2 := by
  induction w with
  | nil => simp
  | cons x w ih =>
    simp only [List.map_cons, List.sum_cons]
    have h1 := ih fun y hy => h0 y (by simp [hy])
    have h2 := h0 x (by simp)
    have h3 : 0 ≤ w.sum := List.sum_nonneg fun y hy => h0 y (by simp [hy])
    nlinarith [mul_nonneg h2 h3]

private lemma sum_sq_eq (w : List ℝ) (h0 : ∀ x ∈ w, 0 ≤ x) (hN : w.sum ≠ 0) :
    (w.map fun x => x ^ 2).sum = w.sum ^ 2 ↔ ∃ x ∈ w, x = w.sum := by
  constructor
  · induction w with
    | nil => simp at hN
    | cons x w ih =>
      intro h
      simp only [List.map_cons, List.sum_cons] at h
      have h0' : ∀ y ∈ w, 0 ≤ y := fun y hy => h0 y (by simp [hy])
      have h1 := sum_sq_le w h0'
      have h2 := h0 x (by simp)
      have h3 : 0 ≤ w.sum := List.sum_nonneg h0'
      have h4 : x * w.sum = 0 := by
        have := mul_nonneg h2 h3
        nlinarith
      rcases mul_eq_zero.1 h4 with g | g
      · have hs : (x :: w).sum = w.sum := by rw [List.sum_cons, g, zero_add]
        rw [hs] at hN
        obtain ⟨y, hy, e⟩ := ih h0' hN (by nlinarith)
        exact ⟨y, by simp [hy], by rw [hs]; exact e⟩
      · exact ⟨x, by simp, by rw [List.sum_cons, g, add_zero]⟩
  · rintro ⟨x, hx, e⟩
    have hle := sum_sq_le w h0
    have : x ^ 2 ≤ (w.map fun x => x ^ 2).sum := by
      apply List.single_le_sum
      · intro z hz
        obtain ⟨y, -, rfl⟩ := List.mem_map.1 hz
        exact sq_nonneg y
      · exact List.mem_map.2 ⟨x, hx, rfl⟩
    rw [e] at this
    exact le_antisymm hle this

/-- The statistic is never negative, and is zero exactly for equal frequencies. -/
theorem C114_nonneg (w : List ℝ) (sf : ℝ → ℕ → ℝ) (X : ℝ) (p : Option ℝ)
    (h : chisquareTest w sf = .ok (some X, p)) :
    0 ≤ X ∧ (X = 0 ↔ ∀ x ∈ w, ∀ y ∈ w, x = y) := by
  obtain ⟨h0, hN, hX, -⟩ := result_eq w sf X p h
  have hl := length_pos_of w hN
  have hp := sum_pos_of w h0 hN
  have he : 0 < w.sum / w.length := div_pos hp hl
  have key : (w.map fun x => (x - w.sum / w.length) ^ 2 / (w.sum / w.length)).sum = X := by
    rw [sum_sq_dev w _ he.ne', hX]
    field_simp
    ring
  have hnn : ∀ z ∈ w.map fun x => (x - w.sum / w.length) ^ 2 / (w.sum / w.length), 0 ≤ z := by
    intro z hz
    obtain ⟨y, -, rfl⟩ := List.mem_map.1 hz
    positivity
  refine ⟨by rw [← key]; exact List.sum_nonneg hnn, ?_⟩
  constructor
  · intro h
    have hall : ∀ x ∈ w, x = w.sum / w.length := by
      intro x hx
      have h1 : (x - w.sum / w.length) ^ 2 / (w.sum / w.length) ≤ 0 := by
        rw [← h, ← key]
        exact List.single_le_sum hnn _ (List.mem_map.2 ⟨x, hx, rfl⟩)
      have h2 : (x - w.sum / w.length) ^ 2 ≤ 0 := by
        by_contra hc
        push Not at hc
        have := div_pos hc he
        linarith
      have h3 : x - w.sum / w.length = 0 := by
        have := le_antisymm h2 (sq_nonneg _)
        exact pow_eq_zero_iff (two_ne_zero) |>.1 this
      linarith
    intro x hx y hy
    rw [hall x hx, hall y hy]
  · intro h
    have hall : ∀ x ∈ w, x = w.sum / w.length := by
      intro x hx
      have : w = List.replicate w.length x := List.eq_replicate_iff.2 ⟨rfl, fun y hy => h y hy x hx⟩
      have hs : w.sum = w.length * x := by
        conv_lhs => rw [this]
        simp
      rw [hs]
      field_simp
    rw [← key]
    apply List.sum_eq_zero
    intro z hz
    obtain ⟨y, hy, rfl⟩ := List.mem_map.1 hz
    rw [← hall y hy]
    simp

/-- The statistic is at most `N(k-1)`, and reaches this exactly if one bin holds all the data. -/
theorem C114_max (w : List ℝ) (sf : ℝ → ℕ → ℝ) (X : ℝ) (p : Option ℝ)
    (h : chisquareTest w sf = .ok (some X, p)) :
    X ≤ w.sum * (w.length - 1) ∧ (X = w.sum * (w.length - 1) ↔ ∃ x ∈ w, x = w.sum) := by
  obtain ⟨h0, hN, hX, -⟩ := result_eq w sf X p h
  have hl := length_pos_of w hN
  have hp := sum_pos_of w h0 hN
  have hc : 0 < (w.length : ℝ) / w.sum := div_pos hl hp
  have e : w.sum * ((w.length : ℝ) - 1) = w.length / w.sum * w.sum ^ 2 - w.sum := by
    field_simp
  rw [e, hX]
  refine ⟨?_, ?_⟩
  · have := mul_le_mul_of_nonneg_left (sum_sq_le w h0) hc.le
    linarith
  · rw [← sum_sq_eq w h0 hN]
    constructor
    · intro h
      exact mul_left_cancel₀ hc.ne' (by linarith)
    · intro h; rw [h]

/-- The result does not depend on the order of the bins: in particular not on the direction in which
the first bin lies. -/
theorem C114_order (w w' : List ℝ) (h : w.Perm w') (sf : ℝ → ℕ → ℝ) :
    chisquareTest w' sf = chisquareTest w sf := by
  unfold chisquareTest chisquare
  have h1 : (w' = []) ↔ (w = []) := by
    constructor
    · rintro rfl; exact h.eq_nil
    · rintro rfl; exact h.symm.eq_nil
  have h2 : (w'.any fun x => decide (x < 0)) = w.any fun x => decide (x < 0) := by
    rw [Bool.eq_iff_iff, List.any_eq_true, List.any_eq_true]
    simp [h.mem_iff]
  rw [h2, h.length_eq, h.sum_eq]
  simp only [h1]
  rw [(h.map fun x => (x - w'.sum / w'.length) ^ 2 / (w'.sum / w'.length)).sum_eq]

/-- Multiplying all frequencies by `c > 0` multiplies the statistic by `c`; the degrees of freedom stay:
the test must be given counts, since percentages or densities change the p-value. -/
theorem C114_scale (w : List ℝ) (c : ℝ) (hc : 0 < c) (sf : ℝ → ℕ → ℝ) (X : ℝ) (p : Option ℝ)
    (h : chisquareTest w sf = .ok (some X, p)) :
    p = some (sf X (w.length - 1)) ∧
    chisquareTest (w.map fun x => c * x) sf = .ok (some (c * X), some (sf (c * X) (w.length - 1))) := by
  obtain ⟨h0, hN, hX, hp⟩ := result_eq w sf X p h
  refine ⟨hp, ?_⟩
  have e1 : (w.map fun x => c * x).sum = c * w.sum := by rw [List.sum_map_mul_left]; simp
  have e2 : ((w.map fun x => c * x).map fun x => x ^ 2).sum = c ^ 2 * (w.map fun x => x ^ 2).sum := by
    rw [List.map_map, ← List.sum_map_mul_left]
    congr 1
    apply List.map_congr_left
    intro x _
    simp only [Function.comp]; ring
  have := C114_statistic (w.map fun x => c * x) (by
      intro x hx
      obtain ⟨y, hy, rfl⟩ := List.mem_map.1 hx
      exact mul_nonneg hc.le (h0 y hy)) (by rw [e1]; exact mul_ne_zero hc.ne' hN) sf (c * X) (by
      rw [e1, e2, hX, List.length_map]
      have := hc.ne'
      field_simp)
  rwa [List.length_map] at this

/-- Adding an empty bin raises the statistic by `Σw²/N` and the degrees of freedom by one: bins with no
observations have to be passed as zeros, leaving them out changes the result. -/
theorem C114_empty_bin (w : List ℝ) (sf : ℝ → ℕ → ℝ) (X : ℝ) (p : Option ℝ)
    (h : chisquareTest w sf = .ok (some X, p)) (Y : ℝ)
    (hY : Y = X + (w.map fun x => x ^ 2).sum / w.sum) :
    X < Y ∧ p = some (sf X (w.length - 1)) ∧
      chisquareTest (w ++ [0]) sf = .ok (some Y, some (sf Y w.length)) := by
  obtain ⟨h0, hN, hX, hp⟩ := result_eq w sf X p h
  have hs := sum_pos_of w h0 hN
  have hq : 0 < (w.map fun x => x ^ 2).sum := by
    by_contra hc
    push Not at hc
    apply hN
    apply List.sum_eq_zero
    intro x hx
    have h1 : x ^ 2 ≤ (w.map fun x => x ^ 2).sum := by
      apply List.single_le_sum
      · intro z hz
        obtain ⟨y, -, rfl⟩ := List.mem_map.1 hz
        exact sq_nonneg y
      · exact List.mem_map.2 ⟨x, hx, rfl⟩
    exact pow_eq_zero_iff two_ne_zero |>.1 (le_antisymm (h1.trans hc) (sq_nonneg x))
  refine ⟨by rw [hY]; linarith [div_pos hq hs], hp, ?_⟩
  have e1 : (w ++ [0]).sum = w.sum := by simp
  have e2 : ((w ++ [0]).map fun x => x ^ 2).sum = (w.map fun x => x ^ 2).sum := by simp
  have := C114_statistic (w ++ [0]) (by
      intro x hx
      rcases List.mem_append.1 hx with g | g
      · exact h0 x g
      · rw [List.mem_singleton.1 g]) (by rw [e1]; exact hN) sf Y (by
      rw [e1, e2, hY, hX, List.length_append]
      push_cast
      simp only [List.length_singleton, Nat.cast_one]
      field_simp
      ring)
  rwa [List.length_append, List.length_singleton, Nat.add_sub_cancel] at this

end Verif.Props
