import Verif.Props.MedianGrouped
import Mathlib.MeasureTheory.Integral.IntervalIntegral.Basic

/-!
# C86: the median of grouped data halves the histogram
-/

set_option autoImplicit false

namespace Verif.Props

open Verif Verif.Spec Real

/-- The density of the histogram with equal bins of width `b` that start at `lo` and repeat around the
circle: on the `k`-th bin it is the count of that bin over the bin width. -/
noncomputable def histDensity (lo b : ℝ) (w : List ℝ) (x : ℝ) : ℝ :=
  w.getD (⌊(x - lo) / b⌋ % (w.length : ℤ)).toNat 0 / b

/-- The centres of `n` equal bins of the circle, the first one centred at `c`. -/
noncomputable def binCentres (c : ℝ) (n : ℕ) : List ℝ :=
  (List.range n).map fun i : ℕ => c + i * (2 * π / n)

/-- The count of bin `k`, for bins numbered around the circle. -/
noncomputable def wAt (w : List ℝ) (k : ℤ) : ℝ := w.getD (k % (w.length : ℤ)).toNat 0

private lemma wAt_add (w : List ℝ) (k : ℤ) : wAt w (k + w.length) = wAt w k := by
  unfold wAt; rw [Int.add_emod_right]

private lemma sum_shift {f : ℤ → ℝ} {n : ℕ} (hf : ∀ k, f (k + n) = f k) (s : ℕ) :
    ∑ j ∈ Finset.range n, f (j + s) = ∑ j ∈ Finset.range n, f j := by
  induction s with
  | zero => simp
  | succ s ih =>
    rw [← ih]
    have h1 := Finset.sum_range_succ (fun j : ℕ => f (j + s)) n
    have h2 := Finset.sum_range_succ' (fun j : ℕ => f (j + s)) n
    have h3 : f ((n : ℤ) + s) = f (((0 : ℕ) : ℤ) + s) := by
      rw [add_comm, hf]; simp
    have h4 : ∑ j ∈ Finset.range n, f (j + (s + 1 : ℕ))
        = ∑ j ∈ Finset.range n, f ((j + 1 : ℕ) + s) := by
      apply Finset.sum_congr rfl
      intro j _; congr 1; push_cast; ring
    rw [h4]; rw [h3] at h1; linarith

private lemma integral_cell {lo b t : ℝ} (hb : 0 < b) (ht : t ≤ b) (h0 : 0 ≤ t) (w : List ℝ) (k : ℤ) :
    IntervalIntegrable (histDensity lo b w) MeasureTheory.volume (lo + k * b) (lo + k * b + t) ∧
    ∫ x in (lo + k * b)..(lo + k * b + t), histDensity lo b w x = wAt w k * t / b := by
  have hcongr : ∀ x ∈ Set.Ioo (lo + k * b) (lo + k * b + t), histDensity lo b w x = wAt w k / b := by
    intro x hx
    have : ⌊(x - lo) / b⌋ = k := by
      rw [Int.floor_eq_iff, le_div_iff₀ hb, div_lt_iff₀ hb]
      constructor <;> nlinarith [hx.1, hx.2]
    unfold histDensity wAt; rw [this]
  have hle : lo + k * b ≤ lo + k * b + t := by linarith
  constructor
  · rw [intervalIntegrable_iff_integrableOn_Ioo_of_le hle]
    refine MeasureTheory.IntegrableOn.congr_fun (f := fun _ => wAt w k / b) ?_
      (fun x hx => (hcongr x hx).symm) measurableSet_Ioo
    exact MeasureTheory.integrableOn_const (by simp)
  · rw [intervalIntegral.integral_of_le hle, MeasureTheory.integral_Ioc_eq_integral_Ioo,
      MeasureTheory.setIntegral_congr_fun measurableSet_Ioo hcongr]
    simp [h0]; ring

private lemma integral_cells {lo b : ℝ} (hb : 0 < b) (w : List ℝ) (k : ℤ) (h : ℕ) :
    IntervalIntegrable (histDensity lo b w) MeasureTheory.volume (lo + k * b) (lo + (k + h : ℤ) * b) ∧
    ∫ x in (lo + k * b)..(lo + (k + h : ℤ) * b), histDensity lo b w x
      = ∑ j ∈ Finset.range h, wAt w (k + j) := by
  induction h with
  | zero => simp
  | succ h ih =>
    obtain ⟨i1, i2⟩ := ih
    obtain ⟨c1, c2⟩ := integral_cell (lo := lo) hb le_rfl hb.le w (k + h)
    have e : lo + ((k + h : ℤ) : ℝ) * b + b = lo + ((k + (h + 1 : ℕ) : ℤ) : ℝ) * b := by
      push_cast; ring
    rw [e] at c1 c2
    refine ⟨i1.trans c1, ?_⟩
    rw [← intervalIntegral.integral_add_adjacent_intervals i1 c1, i2, c2, Finset.sum_range_succ]
    field_simp

/-- The half circle that ends `t` after the start of bin `i`. -/
private lemma integral_half {lo b t : ℝ} (hb : 0 < b) (ht : t ≤ b) (h0 : 0 ≤ t) (w : List ℝ) (k : ℤ)
    (h : ℕ) :
    IntervalIntegrable (histDensity lo b w) MeasureTheory.volume (lo + k * b + t)
      (lo + (k + h : ℤ) * b + t) ∧
    ∫ x in (lo + k * b + t)..(lo + (k + h : ℤ) * b + t), histDensity lo b w x
      = (∑ j ∈ Finset.range h, wAt w (k + j)) + t / b * (wAt w (k + h) - wAt w k) := by
  obtain ⟨a1, a2⟩ := integral_cells (lo := lo) hb w k h
  obtain ⟨c1, c2⟩ := integral_cell (lo := lo) hb ht h0 w k
  obtain ⟨d1, d2⟩ := integral_cell (lo := lo) hb ht h0 w (k + h)
  refine ⟨c1.symm.trans (a1.trans d1), ?_⟩
  rw [← intervalIntegral.integral_add_adjacent_intervals c1.symm (a1.trans d1),
    ← intervalIntegral.integral_add_adjacent_intervals a1 d1, intervalIntegral.integral_symm, a2, c2,
    d2]
  ring

private lemma pi_round : round5 π = 314159 / 10 ^ 5 := by
  unfold round5
  have : roundEven (π * 10 ^ 5) = 314159 := by
    apply roundEven_of_abs_lt
    have h1 := Real.pi_gt_d6
    have h2 := Real.pi_lt_d6
    rw [abs_lt]; constructor <;> push_cast <;> norm_num at * <;> linarith
  rw [this]; norm_num

/-- Which bins the code counts as lying in the half circle after bin `i`. -/
private lemma rotated_iff {h : ℕ} (hh : 0 < h) (hbin : 3 / 10 ^ 6 ≤ π / h) (d : ℤ) :
    angmod2pi (d * (π / h)) ≤ round5 π ↔ d % (2 * h : ℕ) < h := by
  have hh' : (0 : ℝ) < h := by exact_mod_cast hh
  have hpi := pi_pos
  have hn : (0 : ℤ) < (2 * h : ℕ) := by exact_mod_cast (by omega : 0 < 2 * h)
  have h1 := Int.emod_nonneg d hn.ne'
  have h2 := Int.emod_lt_of_pos d hn
  have hq := Int.emod_add_mul_ediv d (2 * h : ℕ)
  obtain ⟨r, hr⟩ : ∃ r, d % (2 * h : ℕ) = r := ⟨_, rfl⟩
  rw [hr] at h1 h2 hq ⊢
  have hb : 0 < π / h := by positivity
  have hhb : h * (π / h) = π := by field_simp
  have hang : angmod2pi (d * (π / h)) = r * (π / h) := by
    apply angmod2pi_eq_iff.2
    refine ⟨by have : (0:ℝ) ≤ r := by exact_mod_cast h1
               positivity, ?_, -(d / (2 * h : ℕ)), ?_⟩
    · have : (r : ℝ) < 2 * h := by exact_mod_cast h2
      nlinarith
    · have : (d : ℝ) = r + (2 * h) * ((d / (2 * h : ℕ) : ℤ) : ℝ) := by
        exact_mod_cast hq.symm
      rw [this]
      push_cast
      field_simp
      ring
  rw [hang, pi_round]
  have p1 := Real.pi_gt_d6
  have p2 := Real.pi_lt_d6
  constructor
  · intro hle
    by_contra hc
    have : (h : ℝ) ≤ r := by exact_mod_cast not_lt.1 hc
    have : π ≤ r * (π / h) := by nlinarith
    norm_num at *; linarith
  · intro hlt
    have : (r : ℝ) + 1 ≤ h := by exact_mod_cast hlt
    have : r * (π / h) + π / h ≤ π := by nlinarith
    norm_num at *; linarith

private lemma sum_range_list (f : ℕ → ℝ) (n : ℕ) :
    ((List.range n).map f).sum = ∑ j ∈ Finset.range n, f j := rfl

private lemma sum_filter {β : Type} (l : List β) (p : β → Bool) (f : β → ℝ) :
    ((l.filter p).map f).sum = (l.map fun x => if p x then f x else 0).sum := by
  induction l with
  | nil => simp
  | cons a l ih =>
    by_cases hp : p a <;> simp [hp, ih]

private lemma list_wAt (w : List ℝ) : w = (List.range w.length).map fun j : ℕ => wAt w j := by
  apply List.ext_getElem
  · simp
  · intro i h1 h2
    simp only [List.getElem_map, List.getElem_range, wAt]
    rw [Int.emod_eq_of_lt (by positivity) (by exact_mod_cast h1), Int.toNat_natCast,
      List.getD_eq_getElem?_getD, List.getElem?_eq_getElem h1, Option.getD_some]

private lemma rotate_range {β : Type} (f : ℤ → β) {n : ℕ} (hf : ∀ k, f (k + n) = f k) :
    ((List.range n).map fun j : ℕ => f j).rotate 1 = (List.range n).map fun j : ℕ => f (j + 1) := by
  apply List.ext_getElem
  · simp
  · intro i h1 h2
    have hi : i < n := by simpa using h2
    simp only [List.getElem_rotate, List.getElem_map, List.getElem_range, List.length_map,
      List.length_range]
    rcases Nat.lt_or_ge (i + 1) n with h | h
    · rw [Nat.mod_eq_of_lt h]; push_cast; rfl
    · have : i + 1 = n := by omega
      rw [this, Nat.mod_self]
      have e : (i : ℤ) + 1 = 0 + n := by omega
      rw [e, hf]; simp

private lemma left_eq {w : List ℝ} {h : ℕ} (hh : 0 < h) (hlen : w.length = 2 * h)
    (hbin : 3 / 10 ^ 6 ≤ π / h) (u : ℝ) :
    groupedLeft ((List.range (2 * h)).map fun i : ℕ => u + i * (π / h)) w
      = (List.range (2 * h)).map fun i : ℕ => ∑ j ∈ Finset.range h, wAt w (i + 1 - h + j) := by
  have hn : 0 < 2 * h := by omega
  have hper : ∀ k : ℤ, wAt w (k + (2 * h : ℕ)) = wAt w k := fun k => by
    rw [← hlen]; exact wAt_add w k
  have hw := list_wAt w
  rw [hlen] at hw
  have hrot : w.rotate 1 = (List.range (2 * h)).map fun j : ℕ => wAt w (j + 1) := by
    conv_lhs => rw [hw]
    exact rotate_range (wAt w) hper
  have hsum : w.sum = ∑ j ∈ Finset.range (2 * h), wAt w (j + 1) := by
    conv_lhs => rw [hw]
    rw [sum_range_list]
    have := sum_shift (f := wAt w) hper 1
    rw [← this]; simp
  unfold groupedLeft
  simp only [List.length_map, List.length_range, Nat.mul_mod_right, ne_eq, not_true_eq_false,
    if_false, hrot, List.map_map]
  apply List.map_congr_left
  intro i hi
  simp only [Function.comp]
  rw [sum_filter, List.zip_map', List.map_map, sum_range_list, hsum, ← Finset.sum_sub_distrib]
  obtain ⟨f, hf⟩ : ∃ f : ℤ → ℝ, f = fun j : ℤ => if (j - i) % (2 * h : ℕ) < h then 0 else wAt w (j + 1) :=
    ⟨_, rfl⟩
  have hfper : ∀ k, f (k + (2 * h : ℕ)) = f k := by
    intro k
    rw [hf]
    simp only
    rw [show k + ((2 * h : ℕ) : ℤ) - i = k - i + (2 * h : ℕ) by ring, Int.add_emod_right,
      show k + ((2 * h : ℕ) : ℤ) + 1 = k + 1 + (2 * h : ℕ) by ring, hper]
  have e1 : ∀ j ∈ Finset.range (2 * h),
      (wAt w (j + 1) - (((fun x : ℝ × ℝ =>
        if (decide (0 ≤ angmod2pi (x.1 - (u + i * (π / h)))) &&
          decide (angmod2pi (x.1 - (u + i * (π / h))) ≤ round5 π)) = true then x.2 else 0) ∘
            fun x : ℕ => (u + x * (π / h), wAt w (x + 1))) j)) = f j := by
    intro j _
    simp only [Function.comp, hf]
    have hd : u + (j : ℝ) * (π / h) - (u + i * (π / h)) = ((j - i : ℤ) : ℝ) * (π / h) := by
      push_cast; ring
    rw [hd]
    have h0 : 0 ≤ angmod2pi (((j - i : ℤ) : ℝ) * (π / h)) := angmod2pi_nonneg _
    by_cases hc : ((j : ℤ) - i) % (2 * h : ℕ) < h
    · rw [if_pos, if_pos hc]
      · simp
      · simp only [Bool.and_eq_true, decide_eq_true_eq]
        exact ⟨h0, (rotated_iff hh hbin _).2 hc⟩
    · rw [if_neg, if_neg hc, sub_zero]
      simp only [Bool.and_eq_true, decide_eq_true_eq, not_and]
      exact fun _ hle => hc ((rotated_iff hh hbin _).1 hle)
  rw [Finset.sum_congr rfl e1, ← sum_shift hfper i, two_mul, Finset.sum_range_add]
  have z : ∑ x ∈ Finset.range h, f ((x : ℤ) + i) = 0 := by
    apply Finset.sum_eq_zero
    intro x hx
    have hx := Finset.mem_range.1 hx
    rw [hf]; simp only
    rw [if_pos]
    rw [add_sub_cancel_right, Int.emod_eq_of_lt (by positivity) (by push_cast; omega)]
    exact_mod_cast hx
  rw [z, zero_add]
  apply Finset.sum_congr rfl
  intro x hx
  have hx := Finset.mem_range.1 hx
  rw [hf]; simp only
  rw [if_neg, ← hper (i + 1 - h + x)]
  · congr 1; push_cast; ring
  · rw [add_sub_cancel_right, Int.emod_eq_of_lt (by positivity) (by push_cast; omega)]
    push_cast; omega

private lemma min_diff {u b : ℝ} {n : ℕ} (hn : 2 ≤ n) :
    minL (diff ((List.range n).map fun i : ℕ => u + i * b)) = some b := by
  have hd : diff ((List.range n).map fun i : ℕ => u + i * b) = List.replicate (n - 1) b := by
    apply List.ext_getElem
    · simp [diff]
    · intro i h1 h2
      simp [diff]
      ring
  rw [hd, minL_eq_some_iff]
  refine ⟨by simp; omega, ?_⟩
  intro x hx
  exact (List.eq_of_mem_replicate hx).ge

private lemma pick_ratio {ranges : List (ℝ × ℝ × ℝ)} {half b m : ℝ}
    (h : groupedPick ranges half b = .ok (some [m])) :
    ∃ x ∈ ranges, x.2.1 ≤ half ∧ half ≤ x.2.2 ∧ x.2.1 < x.2.2 ∧
      m = x.1 + b * ((half - x.2.1) / (x.2.2 - x.2.1)) := by
  unfold groupedPick at h
  simp only at h
  split_ifs at h with h1
  · simp at h
  split at h
  · rename_i x hx
    have hmem : x ∈ ranges.filter fun x => decide (x.2.1 ≤ half) && decide (half ≤ x.2.2) := by
      rw [hx]; simp
    simp only [List.mem_filter, Bool.and_eq_true, decide_eq_true_eq] at hmem
    obtain ⟨hxm, h2, h3⟩ := hmem
    have hle : x.2.1 ≤ x.2.2 := h2.trans h3
    rw [min_eq_left hle, max_eq_right hle] at h
    unfold pydiv at h
    split_ifs at h with h0
    · simp at h
    · simp only [Option.map_some, Except.ok.injEq, Option.some.injEq, List.cons.injEq, and_true] at h
      exact ⟨x, hxm, h2, h3, lt_of_le_of_ne hle fun e => h0 (by rw [e, sub_self]), h.symm⟩
  · split at h
    · split_ifs at h <;> simp at h
    · simp at h

private lemma round5_int (k : ℤ) : round5 (k : ℝ) = k := by
  have := round5_of_grid (k * 100000)
  rw [show (((k * 100000 : ℤ)) : ℝ) / 10 ^ 5 = k by push_cast; ring] at this
  exact this

private lemma round5_int_half (k : ℤ) : round5 ((k : ℝ) / 2) = k / 2 := by
  have := round5_of_grid (k * 50000)
  rw [show (((k * 50000 : ℤ)) : ℝ) / 10 ^ 5 = k / 2 by push_cast; ring] at this
  exact this

/-- **C86.** For counts in an even number of equal bins around the circle (at most two million of them),
a single returned median `m` halves the histogram: the half circle before `m` and the half circle after
`m` each hold half of the total count, every count being spread evenly over its bin. Moreover `m` lies in
a bin with a larger count than the opposite bin, so that it is a median and not an antimedian. -/
theorem C86_grouped_halves (counts : List ℕ) (h : ℕ) (hlen : counts.length = 2 * h)
    (hbin : 3 / 10 ^ 6 ≤ π / h) (c m : ℝ)
    (hm : circMedianGrouped (binCentres c (2 * h)) (counts.map fun k : ℕ => (k : ℝ)) = .ok (some [m])) :
    (∫ x in (m - π)..m, histDensity (c - π / h / 2) (π / h) (counts.map fun k : ℕ => (k : ℝ)) x)
        = ((counts.sum : ℕ) : ℝ) / 2 ∧
    (∫ x in m..(m + π), histDensity (c - π / h / 2) (π / h) (counts.map fun k : ℕ => (k : ℝ)) x)
        = ((counts.sum : ℕ) : ℝ) / 2 ∧
    ∃ i j : ℕ, ∃ hi : i < counts.length, ∃ hj : j < counts.length,
      (∃ z : ℤ, |m - (c + i * (π / h)) - z * (2 * π)| ≤ π / h / 2) ∧ (j = i + h ∨ i = j + h) ∧
        counts[j] < counts[i] := by
  have hh : 0 < h := by
    rcases Nat.eq_zero_or_pos h with rfl | h0
    · norm_num at hbin
    · exact h0
  have hh' : (0 : ℝ) < h := by exact_mod_cast hh
  have hpi := pi_pos
  obtain ⟨w, hw⟩ : ∃ w : List ℝ, w = counts.map fun k : ℕ => (k : ℝ) := ⟨_, rfl⟩
  obtain ⟨b, hbdef⟩ : ∃ b : ℝ, b = π / h := ⟨_, rfl⟩
  have hb : 0 < b := by rw [hbdef]; positivity
  have hhb : h * b = π := by rw [hbdef]; field_simp
  have hwlen : w.length = 2 * h := by rw [hw, List.length_map, hlen]
  have hcent : binCentres c (2 * h) = (List.range (2 * h)).map fun i : ℕ => c + i * b := by
    unfold binCentres
    apply List.map_congr_left
    intro i _
    rw [hbdef]; push_cast; field_simp
  rw [← hw, hcent] at hm
  have hcnt : ∀ k : ℤ, wAt w k = ((counts.getD (k % (w.length : ℤ)).toNat 0 : ℕ) : ℝ) := by
    intro k
    unfold wAt
    rw [hw, List.getD_eq_getElem?_getD, List.getD_eq_getElem?_getD, List.getElem?_map]
    cases (counts[(k % ((counts.map fun k : ℕ => (k : ℝ)).length : ℤ)).toNat]? : Option ℕ) <;> simp
  have hper : ∀ k : ℤ, wAt w (k + (2 * h : ℕ)) = wAt w k := fun k => by
    rw [← hwlen]; exact wAt_add w k
  obtain ⟨L, hL⟩ : ∃ L : ℤ → ℝ, L = fun i => ∑ j ∈ Finset.range h, wAt w (i + 1 - h + j) := ⟨_, rfl⟩
  have hLper : ∀ k, L (k + (2 * h : ℕ)) = L k := by
    intro k
    rw [hL]
    apply Finset.sum_congr rfl
    intro j _
    rw [← hper (k + 1 - h + j)]; congr 1; ring
  have hLint : ∀ k, ∃ z : ℤ, L k = z := by
    intro k
    refine ⟨∑ j ∈ Finset.range h, (counts.getD ((k + 1 - h + j) % (w.length : ℤ)).toNat 0 : ℕ), ?_⟩
    rw [hL]
    push_cast
    exact Finset.sum_congr rfl fun j _ => hcnt _
  have hLstep : ∀ k, L (k + 1) = L k + (wAt w (k + 1) - wAt w (k + 1 - h)) := by
    intro k
    have h1 := Finset.sum_range_succ (fun j : ℕ => wAt w (k + 1 - h + j)) h
    have h2 := Finset.sum_range_succ' (fun j : ℕ => wAt w (k + 1 - h + j)) h
    have h3 : L (k + 1) = ∑ j ∈ Finset.range h, wAt w (k + 1 - h + ((j + 1 : ℕ) : ℤ)) := by
      rw [hL]
      apply Finset.sum_congr rfl
      intro j _; congr 1; push_cast; ring
    have h4 : L k = ∑ j ∈ Finset.range h, wAt w (k + 1 - h + j) := by rw [hL]
    rw [← h3] at h2
    rw [← h4] at h1
    rw [show k + 1 - (h : ℤ) + h = k + 1 by ring] at h1
    rw [show k + 1 - (h : ℤ) + ((0 : ℕ) : ℤ) = k + 1 - h by simp] at h2
    linarith
  have htot : ∀ i : ℕ, L i + ∑ j ∈ Finset.range h, wAt w (i + 1 + j) = ((counts.sum : ℕ) : ℝ) := by
    intro i
    have h1 : ((counts.sum : ℕ) : ℝ) = w.sum := by
      rw [hw]; exact_mod_cast Nat.cast_list_sum counts
    have h2 : w.sum = ∑ j ∈ Finset.range (2 * h), wAt w j := by
      conv_lhs => rw [list_wAt w, hwlen]
      exact sum_range_list _ _
    rw [h1, h2, ← sum_shift hper (i + 1), two_mul, Finset.sum_range_add, add_comm, hL]
    congr 1
    · apply Finset.sum_congr rfl
      intro j _; congr 1; push_cast; ring
    · apply Finset.sum_congr rfl
      intro j _; rw [← hper (i + 1 - h + j)]; congr 1; push_cast; ring
  unfold circMedianGrouped at hm
  rw [min_diff (by omega)] at hm
  simp only [List.map_map] at hm
  have hub : (List.range (2 * h)).map ((fun x => x + b / 2) ∘ fun i : ℕ => c + i * b)
      = (List.range (2 * h)).map fun i : ℕ => (c + b / 2) + i * b := by
    apply List.map_congr_left
    intro i _; simp only [Function.comp]; ring
  rw [hub] at hm
  have hleft : groupedLeft ((List.range (2 * h)).map fun i : ℕ => (c + b / 2) + i * b) w
      = (List.range (2 * h)).map fun i : ℕ => L i := by
    have := left_eq hh hwlen hbin (c + b / 2)
    rw [← hbdef] at this
    rw [this, hL]
  rw [hleft] at hm
  have hrange : groupedRanges ((List.range (2 * h)).map fun i : ℕ => (c + b / 2) + i * b)
      ((List.range (2 * h)).map fun i : ℕ => L i)
      = (List.range (2 * h)).map fun i : ℕ => ((c + b / 2) + i * b, L i, L (i + 1)) := by
    unfold groupedRanges
    rw [rotate_range L hLper, List.zipWith_map, List.zipWith_self, List.zip_map']
    apply List.map_congr_left
    intro i _
    obtain ⟨z1, e1⟩ := hLint i
    obtain ⟨z2, e2⟩ := hLint (i + 1)
    rw [e1, e2, round5_int, round5_int]
  have hhalf : round5 (w.sum / 2) = ((counts.sum : ℕ) : ℝ) / 2 := by
    have h1 : w.sum = ((counts.sum : ℕ) : ℝ) := by
      rw [hw]; exact_mod_cast (Nat.cast_list_sum counts).symm
    rw [h1]; exact round5_int_half (counts.sum : ℕ)
  rw [hrange, hhalf] at hm
  obtain ⟨x, hx, h1, h2, h3, h4⟩ := pick_ratio hm
  obtain ⟨i, hi, rfl⟩ := List.mem_map.1 hx
  have hi : i < 2 * h := List.mem_range.1 hi
  simp only at h1 h2 h3 h4
  obtain ⟨N, hN⟩ : ∃ N : ℝ, N = ((counts.sum : ℕ) : ℝ) := ⟨_, rfl⟩
  obtain ⟨t, ht⟩ : ∃ t : ℝ, t = (N / 2 - L i) / (L (i + 1) - L i) := ⟨_, rfl⟩
  rw [← hN] at h1 h2 h4
  rw [← ht] at h4
  have hpos : 0 < L (i + 1) - L i := by linarith
  have t0 : 0 ≤ t := by rw [ht]; exact div_nonneg (by linarith) hpos.le
  have t1 : t ≤ 1 := by rw [ht, div_le_one hpos]; linarith
  have hst := hLstep i
  have hint : L i + t * (wAt w (i + 1) - wAt w (i + 1 - h)) = N / 2 := by
    have : wAt w (i + 1) - wAt w (i + 1 - h) = L (i + 1) - L i := by linarith
    rw [this, ht]; field_simp; ring
  obtain ⟨_, i1⟩ := integral_half (lo := c - b / 2) (t := b * t) hb (by nlinarith) (by positivity) w
    (i + 1 - h) h
  obtain ⟨_, i2⟩ := integral_half (lo := c - b / 2) (t := b * t) hb (by nlinarith) (by positivity) w
    (i + 1) h
  have eb : b * t / b = t := by field_simp
  rw [eb] at i1 i2
  rw [← hw, ← hbdef, ← hN]
  refine ⟨?_, ?_, ?_⟩
  · have e1 : c - b / 2 + ((i + 1 - h : ℤ) : ℝ) * b + b * t = m - π := by
      rw [h4, ← hhb]; push_cast; ring
    have e2 : c - b / 2 + ((i + 1 - h + h : ℤ) : ℝ) * b + b * t = m := by
      rw [h4]; push_cast; ring
    rw [e1, e2] at i1
    rw [i1, sub_add_cancel, ← hint, hL]
  · have e1 : c - b / 2 + ((i + 1 : ℤ) : ℝ) * b + b * t = m := by
      rw [h4]; push_cast; ring
    have e2 : c - b / 2 + ((i + 1 + h : ℤ) : ℝ) * b + b * t = m + π := by
      rw [h4, ← hhb]; push_cast; ring
    rw [e1, e2] at i2
    have := htot i
    have e3 : wAt w (i + 1 + h) = wAt w (i + 1 - h) := by
      rw [← hper (i + 1 - h)]; congr 1; push_cast; ring
    rw [i2, e3]
    rw [← hN] at this
    linarith
  · have hlt : wAt w (i + 1 - h) < wAt w (i + 1) := by linarith
    rw [hcnt, hcnt] at hlt
    have hlt : counts.getD (((i : ℤ) + 1 - h) % (w.length : ℤ)).toNat 0
      < counts.getD (((i : ℤ) + 1) % (w.length : ℤ)).toNat 0 := by exact_mod_cast hlt
    rw [hwlen] at hlt
    have hn : (0 : ℤ) < (2 * h : ℕ) := by exact_mod_cast (by omega : 0 < 2 * h)
    have hgen : ∀ k : ℤ, (k % (2 * h : ℕ)).toNat < counts.length := by
      intro k
      rw [hlen]
      have a1 := Int.emod_nonneg k hn.ne'
      have a2 := Int.emod_lt_of_pos k hn
      omega
    refine ⟨(((i : ℤ) + 1) % (2 * h : ℕ)).toNat, (((i : ℤ) + 1 - h) % (2 * h : ℕ)).toNat, hgen _, hgen _,
      ?_, ?_, ?_⟩
    · obtain ⟨r, hr⟩ : ∃ r, ((i : ℤ) + 1) % (2 * h : ℕ) = r := ⟨_, rfl⟩
      have a1 := Int.emod_nonneg ((i : ℤ) + 1) hn.ne'
      have hq := Int.emod_add_mul_ediv ((i : ℤ) + 1) (2 * h : ℕ)
      obtain ⟨q, hqe⟩ : ∃ q, ((i : ℤ) + 1) / (2 * h : ℕ) = q := ⟨_, rfl⟩
      rw [hr] at hq a1 ⊢
      rw [hqe] at hq
      refine ⟨q, ?_⟩
      have hrr : ((r.toNat : ℕ) : ℝ) = r := by exact_mod_cast Int.toNat_of_nonneg a1
      have hq' : (r : ℝ) + 2 * h * q = i + 1 := by exact_mod_cast hq
      have : m - (c + (r.toNat : ℕ) * b) - q * (2 * π) = b * t - b / 2 := by
        rw [hrr, h4, ← hhb]
        have : (i : ℝ) = r + 2 * h * q - 1 := by linarith
        rw [this]; ring
      rw [this, abs_le]
      constructor <;> nlinarith
    · have a1 := Int.emod_nonneg ((i : ℤ) + 1) hn.ne'
      have a2 := Int.emod_lt_of_pos ((i : ℤ) + 1) hn
      have hq := Int.emod_add_mul_ediv ((i : ℤ) + 1) (2 * h : ℕ)
      obtain ⟨r, hr⟩ : ∃ r, ((i : ℤ) + 1) % (2 * h : ℕ) = r := ⟨_, rfl⟩
      obtain ⟨q, hqe⟩ : ∃ q, ((i : ℤ) + 1) / (2 * h : ℕ) = q := ⟨_, rfl⟩
      rw [hr] at hq a1 a2 ⊢
      rw [hqe] at hq
      rcases lt_or_ge r (h : ℤ) with hc | hc
      · have e : (i : ℤ) + 1 - h = (r + h) + (2 * h : ℕ) * (q - 1) := by
          rw [← hq]; push_cast; ring
        rw [e, Int.add_mul_emod_self_left, Int.emod_eq_of_lt (by omega) (by push_cast; omega)]
        omega
      · have e : (i : ℤ) + 1 - h = (r - h) + (2 * h : ℕ) * q := by
          rw [← hq]; ring
        rw [e, Int.add_mul_emod_self_left, Int.emod_eq_of_lt (by omega) (by push_cast at a2 ⊢; omega)]
        omega
    · have g1 := hgen ((i : ℤ) + 1 - h)
      have g2 := hgen ((i : ℤ) + 1)
      rw [List.getD_eq_getElem?_getD, List.getD_eq_getElem?_getD, List.getElem?_eq_getElem g1,
        List.getElem?_eq_getElem g2] at hlt
      exact hlt

/-- With three equally filled bins out of six, 120° apart, the reported median is the middle of an *empty*
bin, right opposite to an occupied one: counts 1, 0, 1, 0, 1, 0 in bins centred at 0°, 60°, …, 300° give
180°. Its total arc distance to the data is `5π/3`, that of each occupied bin is `4π/3`. -/
theorem C86_grouped_antimedian (method : String) (init : List (Option ℝ)) :
    circMedian [0, π / 3, 2 * π / 3, π, 4 * π / 3, 5 * π / 3] [1, 0, 1, 0, 1, 0] method true "all" init
      = .ok (some [π]) ∧
    (∀ d1 d2 d3, IsArcDist d1 0 π → IsArcDist d2 (2 * π / 3) π → IsArcDist d3 (4 * π / 3) π →
      d1 + d2 + d3 = 5 * π / 3) ∧
    (∀ d1 d2 d3, IsArcDist d1 0 0 → IsArcDist d2 (2 * π / 3) 0 → IsArcDist d3 (4 * π / 3) 0 →
      d1 + d2 + d3 = 4 * π / 3) := by
  have hpi := pi_pos
  have hpi3 := Real.pi_gt_three
  have hS : sin (2 * π / 3) = sqrt 3 / 2 := by
    rw [show 2 * π / 3 = π - π / 3 by ring, sin_pi_sub, sin_pi_div_three]
  have hC : cos (2 * π / 3) = -(1 / 2) := by
    rw [show 2 * π / 3 = π - π / 3 by ring, cos_pi_sub, cos_pi_div_three]
  have hS' : sin (4 * π / 3) = -(sqrt 3 / 2) := by
    rw [show 4 * π / 3 = π / 3 + π by ring, sin_add_pi, sin_pi_div_three]
  have hC' : cos (4 * π / 3) = -(1 / 2) := by
    rw [show 4 * π / 3 = π / 3 + π by ring, cos_add_pi, cos_pi_div_three]
  have hco : allCoincide [0, π / 3, 2 * π / 3, π, 4 * π / 3, 5 * π / 3] [1, 0, 1, 0, 1, 0] = false := by
    unfold allCoincide circR computeCS
    have e : ((([1, 0, 1, 0, 1, 0] : List ℝ)).sum) = 3 := by norm_num
    simp only [e, pydiv, List.zipWith_cons_cons, List.zipWith_nil_right, List.sum_cons, List.sum_nil,
      Int.cast_one, one_mul, sub_zero, cos_zero, sin_zero, hS, hC, hS', hC', zero_mul]
    norm_num [circRofCS, isclose, rtolDefault]
  have hcand : medianCandidates [0, π / 3, 2 * π / 3, π, 4 * π / 3, 5 * π / 3] [1, 0, 1, 0, 1, 0]
      method init = .ok (some [5 * π / 6, 7 * π / 6]) := by
    unfold medianCandidates
    rw [if_pos (by simp)]
    have hlist : ([0, π / 3, 2 * π / 3, π, 4 * π / 3, 5 * π / 3] : List ℝ)
        = (List.range (2 * 3)).map fun i : ℕ => 0 + i * (π / (3 : ℕ)) := by
      simp [List.range_succ]
      refine ⟨?_, ?_, ?_, ?_⟩ <;> ring
    unfold circMedianGrouped
    rw [hlist, min_diff (by norm_num)]
    have hub : ((List.range (2 * 3)).map fun i : ℕ => 0 + i * (π / (3 : ℕ))).map
        (fun x => x + π / (3 : ℕ) / 2)
        = (List.range (2 * 3)).map fun i : ℕ => π / (3 : ℕ) / 2 + i * (π / (3 : ℕ)) := by
      rw [List.map_map]
      apply List.map_congr_left
      intro i _; simp only [Function.comp]; ring
    simp only
    rw [hub, left_eq (by norm_num) (by simp) (by norm_num; linarith)]
    have hL : ((List.range (2 * 3)).map fun i : ℕ => ∑ j ∈ Finset.range 3,
        wAt [1, 0, 1, 0, 1, 0] (i + 1 - (3 : ℕ) + j)) = [2, 1, 2, 1, 2, 1] := by
      simp [List.range_succ, Finset.sum_range_succ, wAt]
      norm_num
    have s1 : round5 1 = 1 := by simpa using round5_int 1
    have s2 : round5 2 = 2 := by simpa using round5_int 2
    have s3 : round5 (([1, 0, 1, 0, 1, 0] : List ℝ).sum / 2) = 3 / 2 := by
      have := round5_int_half 3
      norm_num at this ⊢; exact this
    rw [hL, s3]
    have hnc : ¬ isclose (π / 3 / 2 + 3 * (π / 3) - (π / 3 / 2 + π / 3 + π / 3)) π rtolDefault
        atolDefault := by
      rw [show π / 3 / 2 + 3 * (π / 3) - (π / 3 / 2 + π / 3 + π / 3) = π / 3 by ring]
      unfold isclose rtolDefault atolDefault
      rw [show π / 3 - π = -(2 * π / 3) by ring, abs_neg, abs_of_pos (by positivity),
        abs_of_pos hpi]
      norm_num
      linarith
    simp [groupedPick, groupedRanges, List.range_succ, List.rotate, List.filter_cons, s1, s2]
    norm_num [hnc]
    constructor <;> ring
  refine ⟨?_, ?_, ?_⟩
  · unfold circMedian
    rw [hco, hcand]
    have k1 : cos (5 * π / 6) = -(sqrt 3 / 2) := by
      rw [show 5 * π / 6 = π - π / 6 by ring, cos_pi_sub, cos_pi_div_six]
    have k2 : cos (7 * π / 6) = -(sqrt 3 / 2) := by
      rw [show 7 * π / 6 = π / 6 + π by ring, cos_add_pi, cos_pi_div_six]
    have k3 : sin (5 * π / 6) = 1 / 2 := by
      rw [show 5 * π / 6 = π - π / 6 by ring, sin_pi_sub, sin_pi_div_six]
    have k4 : sin (7 * π / 6) = -(1 / 2) := by
      rw [show 7 * π / 6 = π / 6 + π by ring, sin_add_pi, sin_pi_div_six]
    have hang : angmod2pi π = π := angmod2pi_eq_self hpi.le (by linarith)
    have hs3 : 0 < sqrt 3 := by positivity
    have hmean : circMean [5 * π / 6, 7 * π / 6] (ones [5 * π / 6, 7 * π / 6]) = some π := by
      have hcs : computeCS [5 * π / 6, 7 * π / 6] (ones [5 * π / 6, 7 * π / 6]) 1 0
          = some (-(sqrt 3 / 2), 0) := by
        have e : ((([1, 1] : List ℝ)).sum) = 2 := by norm_num
        simp only [computeCS, ones, List.map_cons, List.map_nil, e, pydiv, List.zipWith_cons_cons,
          List.zipWith_nil_right, List.sum_cons, List.sum_nil, Int.cast_one, one_mul, sub_zero, k1, k2,
          k3, k4]
        norm_num
      unfold circMean
      rw [hcs]
      have hr : circRofCS (-(sqrt 3 / 2)) 0 = sqrt 3 / 2 := by
        unfold circRofCS
        rw [show (-(sqrt 3 / 2)) ^ 2 + (0 : ℝ) ^ 2 = (sqrt 3 / 2) ^ 2 by ring, sqrt_sq (by positivity)]
      have h1 : 1 ≤ sqrt 3 := by rw [Real.one_le_sqrt]; norm_num
      have hc : ¬ isclose (circRofCS (-(sqrt 3 / 2)) 0) 0 rtolDefault atolDefault := by
        rw [hr, isclose_zero _ _ _ (by positivity)]
        unfold atolDefault
        norm_num
        linarith
      have harg : arctan2 0 (-(sqrt 3 / 2)) = π := by
        unfold arctan2
        have : (⟨-(sqrt 3 / 2), 0⟩ : ℂ) = ((-(sqrt 3 / 2) : ℝ) : ℂ) := by
          apply Complex.ext <;> simp
        rw [this, Complex.arg_ofReal_of_neg (by linarith)]
      show (if isclose (circRofCS (-(sqrt 3 / 2)) 0) 0 rtolDefault atolDefault then none
        else some (angmod2pi (arctan2 0 (-(sqrt 3 / 2))))) = _
      rw [if_neg hc, harg, hang]
    simp [averageMedian, Except.bind, Except.map, hmean, hang]
  · intro d1 d2 d3 h1 h2 h3
    have e1 := isArcDist_of (e := -π) (a := 0) (b := π) (by rw [abs_neg, abs_of_pos hpi])
      ⟨0, by push_cast; ring⟩
    have e2 := isArcDist_of (e := -(π / 3)) (a := 2 * π / 3) (b := π)
      (by rw [abs_neg, abs_of_pos (by positivity)]; linarith) ⟨0, by push_cast; ring⟩
    have e3 := isArcDist_of (e := π / 3) (a := 4 * π / 3) (b := π)
      (by rw [abs_of_pos (by positivity)]; linarith) ⟨0, by push_cast; ring⟩
    rw [isArcDist_unique h1 e1, isArcDist_unique h2 e2, isArcDist_unique h3 e3, abs_neg, abs_neg,
      abs_of_pos hpi, abs_of_pos (by positivity)]
    ring
  · intro d1 d2 d3 h1 h2 h3
    have e1 := isArcDist_of (e := 0) (a := 0) (b := 0) (by rw [abs_zero]; exact hpi.le)
      ⟨0, by push_cast; ring⟩
    have e2 := isArcDist_of (e := 2 * π / 3) (a := 2 * π / 3) (b := 0)
      (by rw [abs_of_pos (by positivity)]; linarith) ⟨0, by push_cast; ring⟩
    have e3 := isArcDist_of (e := -(2 * π / 3)) (a := 4 * π / 3) (b := 0)
      (by rw [abs_neg, abs_of_pos (by positivity)]; linarith) ⟨-1, by push_cast; ring⟩
    rw [isArcDist_unique h1 e1, isArcDist_unique h2 e2, isArcDist_unique h3 e3, abs_neg, abs_zero,
      abs_of_pos (by positivity)]
    ring

/-- Two half-circle bins centred at 90° and 270° with counts 1 and 3 meet the hypotheses of
`C86_grouped_halves`, with median 270°. -/
example : circMedianGrouped (binCentres (π / 2) (2 * 1)) (([1, 3] : List ℕ).map fun k : ℕ => (k : ℝ))
    = .ok (some [3 * π / 2]) ∧ (3 / 10 ^ 6 : ℝ) ≤ π / (1 : ℕ) := by
  have hpi := Real.pi_gt_three
  refine ⟨?_, by norm_num; linarith⟩
  have := grouped_two_bins.1
  convert this using 2
  · simp [binCentres, List.range_succ]; ring
  · simp

end Verif.Props
