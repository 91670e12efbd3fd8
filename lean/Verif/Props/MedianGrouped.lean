import Verif.Props.Median

/-!
# C86: median of grouped data
-/

set_option autoImplicit false

namespace Verif.Props

open Verif Verif.Spec Real

private lemma pick_in_bin {ranges : List (ℝ × ℝ × ℝ)} {half b m : ℝ} (hb : 0 ≤ b)
    (h : groupedPick ranges half b = .ok (some [m])) :
    ∃ x ∈ ranges, x.2.1 ≤ half ∧ half ≤ x.2.2 ∧ x.1 ≤ m ∧ m ≤ x.1 + b := by
  unfold groupedPick at h
  simp only at h
  split_ifs at h with h1
  · simp at h
  split at h
  · rename_i x hx
    have hmem : x ∈ ranges.filter fun x => decide (x.2.1 ≤ half) && decide (half ≤ x.2.2) := by
      rw [hx]; simp
    simp only [List.mem_filter, Bool.and_eq_true, decide_eq_true_eq] at hmem
    obtain ⟨hxm, h2, h3⟩ := hmem
    refine ⟨x, hxm, h2, h3, ?_⟩
    have hle : x.2.1 ≤ x.2.2 := h2.trans h3
    rw [min_eq_left hle, max_eq_right hle] at h
    unfold pydiv at h
    split_ifs at h with h0
    · simp at h
    · simp only [Option.map_some, Except.ok.injEq, Option.some.injEq, List.cons.injEq, and_true] at h
      have hpos : 0 < x.2.2 - x.2.1 := lt_of_le_of_ne (by linarith) (Ne.symm h0)
      have r0 : 0 ≤ (half - x.2.1) / (x.2.2 - x.2.1) := div_nonneg (by linarith) hpos.le
      have r1 : (half - x.2.1) / (x.2.2 - x.2.1) ≤ 1 := by
        rw [div_le_one hpos]; linarith
      constructor <;> nlinarith
  · split at h
    · split_ifs at h <;> simp at h
    · simp at h

/-- When a single bin contains the half-frequency point, the returned median lies in that bin: between
the upper bound of some bin and one bin width further. -/
theorem C86_grouped_in_bin (alpha w : List ℝ) (binSize m : ℝ) (hb : 0 ≤ binSize)
    (hmin : minL (diff alpha) = some binSize) (h : circMedianGrouped alpha w = .ok (some [m])) :
    ∃ a ∈ alpha, a + binSize / 2 ≤ m ∧ m ≤ a + binSize / 2 + binSize := by
  unfold circMedianGrouped at h
  rw [hmin] at h
  obtain ⟨x, hx, _, _, h1, h2⟩ := pick_in_bin hb h
  have := (List.of_mem_zip hx).1
  obtain ⟨a, ha, hax⟩ := List.mem_map.1 this
  exact ⟨a, ha, by rw [hax]; exact h1, by rw [hax]; exact h2⟩

private lemma grid (k : ℤ) : round5 ((k : ℝ) / 10 ^ 5) = k / 10 ^ 5 := round5_of_grid k

private lemma round5_half (k : ℤ) : round5 ((k : ℝ) / 2) = k / 2 := by
  have := round5_of_grid (k * 50000)
  rw [show (((k * 50000 : ℤ)) : ℝ) / 10 ^ 5 = k / 2 by push_cast; ring] at this
  exact this

private lemma pi_round' : round5 π = 314159 / 10 ^ 5 := by
  unfold round5
  have : roundEven (π * 10 ^ 5) = 314159 := by
    apply roundEven_of_abs_lt
    have h1 := Real.pi_gt_d6
    have h2 := Real.pi_lt_d6
    rw [abs_lt]; constructor <;> push_cast <;> norm_num at * <;> linarith
  rw [this]; norm_num

/-- With an odd number of bins the code can raise `IndexError` on plain data: three bins centred at
60°, 180°, 300° with counts 0, 3, 2. -/
theorem C86_grouped_odd_bins_indexError :
    circMedianGrouped [π / 3, π, 5 * π / 3] [0, 3, 2] = .error .indexError := by
  have hpi := pi_pos
  have h3 := Real.pi_gt_d6
  have h4 := Real.pi_lt_d6
  have hd : minL (diff [π / 3, π, 5 * π / 3]) = some (2 * π / 3) := by
    rw [minL_eq_some_iff]
    simp only [diff, List.tail_cons, List.zipWith_cons_cons, List.zipWith_nil_right, List.mem_cons,
      List.not_mem_nil, or_false]
    constructor
    · left; ring
    · rintro x (rfl | rfl) <;> linarith
  have e : ∀ x : ℝ, 0 ≤ x → x < 2 * π → angmod2pi x = x := fun x h0 h1 => angmod2pi_eq_self h0 h1
  have e' : ∀ x : ℝ, -(2 * π) ≤ x → x < 0 → angmod2pi x = x + 2 * π := fun x h0 h1 =>
    angmod2pi_eq_iff.2 ⟨by linarith, by linarith, 1, by push_cast; ring⟩
  have hleft : groupedLeft ([π / 3, π, 5 * π / 3].map (· + 2 * π / 3 / 2)) [0, 3, 2]
      = [-3 / 2, 2, 2] := by
    have a1 : angmod2pi (π / 3 - π) = 4 * π / 3 := by rw [e'] <;> linarith
    have a2 : angmod2pi (π / 3 - 5 * π / 3) = 2 * π / 3 := by rw [e'] <;> linarith
    have a3 : angmod2pi (π - 5 * π / 3) = 4 * π / 3 := by rw [e'] <;> linarith
    have a4 : angmod2pi (π - π / 3) = 2 * π / 3 := by rw [e] <;> linarith
    have a5 : angmod2pi (5 * π / 3 - π / 3) = 4 * π / 3 := by rw [e] <;> linarith
    have a6 : angmod2pi (5 * π / 3 - π) = 2 * π / 3 := by rw [e] <;> linarith
    have a7 : angmod2pi 0 = 0 := e 0 le_rfl (by linarith)
    have b1 : (2 * π / 3 : ℝ) ≤ 314159 / 10 ^ 5 := by norm_num at *; linarith
    have b2 : ¬ (4 * π / 3 : ℝ) ≤ 314159 / 10 ^ 5 := by norm_num at *; linarith
    have b3 : (0 : ℝ) ≤ 314159 / 10 ^ 5 := by norm_num
    have p1 : (0 : ℝ) ≤ 2 * π / 3 := by positivity
    have p2 : (0 : ℝ) ≤ 4 * π / 3 := by positivity
    simp only [groupedLeft, List.map_cons, List.map_nil, List.length_cons, List.length_nil,
      add_sub_add_right_eq_sub, pi_round']
    simp [List.rotate, List.filter_cons, sub_self, a1, a2, a3, a4, a5, a6, a7, b1, b2, b3, p1, p2]
    norm_num
  unfold circMedianGrouped
  rw [hd]
  simp only
  rw [hleft]
  have s1 : round5 (-3 / 2) = -3 / 2 := by simpa using round5_half (-3)
  have s2 : round5 2 = 2 := by
    have := round5_half 4
    norm_num at this; exact this
  have s3 : round5 (([0, 3, 2] : List ℝ).sum / 2) = 5 / 2 := by
    have := round5_half 5
    norm_num at this ⊢; exact this
  rw [s3]
  simp [groupedPick, groupedRanges, List.rotate, List.filter_cons, s1, s2]
  norm_num

/-- Two half-circle bins centred at 90° and 270° with counts 1 and 3: the median is 270°. -/
lemma grouped_two_bins : circMedianGrouped [π / 2, 3 * π / 2] [1, 3] = .ok (some [3 * π / 2]) ∧
    minL (diff [π / 2, 3 * π / 2]) = some π := by
  have hpi := pi_pos
  have h3 := Real.pi_gt_d6
  have hd : minL (diff [π / 2, 3 * π / 2]) = some π := by
    simp [minL, diff]; ring
  have a7 : angmod2pi 0 = 0 := angmod2pi_eq_self le_rfl (by linarith)
  have hleft : groupedLeft ([π / 2, 3 * π / 2].map (· + π / 2)) [1, 3] = [1, 3] := by
    have u : ([π / 2, 3 * π / 2].map (· + π / 2)) = [π, 2 * π] := by
      simp only [List.map_cons, List.map_nil]; ring_nf
    rw [u]
    have a1 : angmod2pi (π - 2 * π) = π := angmod2pi_eq_iff.2
      ⟨by linarith, by linarith, 1, by push_cast; ring⟩
    have a2 : angmod2pi (2 * π - π) = π := angmod2pi_eq_iff.2
      ⟨by linarith, by linarith, 0, by push_cast; ring⟩
    simp only [groupedLeft, List.length_cons, List.length_nil, pi_round']
    have b2 : ¬ π ≤ 314159 / 100000 := by norm_num at *; linarith
    norm_num [List.rotate, List.filter_cons, sub_self, a1, a2, a7, b2, hpi.le]
  refine ⟨?_, hd⟩
  unfold circMedianGrouped
  rw [hd]
  simp only
  rw [hleft]
  have s1 : round5 1 = 1 := by
    have := round5_half 2
    norm_num at this; exact this
  have s2 : round5 3 = 3 := by
    have := round5_half 6
    norm_num at this; exact this
  have s3 : round5 (([1, 3] : List ℝ).sum / 2) = 2 := by
    have := round5_half 4
    norm_num at this ⊢; exact this
  rw [s3]
  simp [groupedPick, groupedRanges, List.rotate, List.filter_cons, s1, s2, pydiv]
  norm_num
  ring

end Verif.Props
