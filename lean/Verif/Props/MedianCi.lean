import Verif.Model.Interval
import Verif.Lemmas.Arc
import Verif.Props.Utils
import Mathlib.Analysis.Real.Pi.Bounds
import Mathlib.Tactic.IntervalCases

/-!
# C23: confidence interval of the median
-/

set_option autoImplicit false

namespace Verif.Props

open Verif Verif.Spec Real

private lemma pyIndex_mem {l : List ℝ} {i : ℤ} {x : ℝ} (h : pyIndex l i = .ok x) : x ∈ l := by
  unfold pyIndex at h
  split_ifs at h
  · split at h
    · rename_i y hy
      simp only [Except.ok.injEq] at h
      subst h
      exact List.mem_of_getElem? hy
    · cases h
  · split at h
    · rename_i y hy
      simp only [Except.ok.injEq] at h
      subst h
      exact List.mem_of_getElem? hy
    · cases h

/-- `n > 15`: when an interval is returned, its end points are observations (as directions), the
level is the requested one, and the interval contains the median provided the end points differ. -/
theorem C23_median_ci_large (median : ℝ) (alpha : List ℝ) (ci z lb ub level : ℝ)
    (hn : 15 < alpha.length)
    (h : circMedianCi median alpha ci z = .ok (some (lb, ub), level)) :
    level = ci ∧ (0 ≤ lb ∧ lb < 2 * π) ∧ (0 ≤ ub ∧ ub < 2 * π) ∧
      (∃ a ∈ alpha, SameDir lb a) ∧ (∃ a ∈ alpha, SameDir ub a) ∧
      (¬ SameDir lb ub → OnArc median lb ub) := by
  unfold circMedianCi at h
  simp only [if_pos hn] at h
  cases hl : medianCiLarge (sortR alpha) median (1 + ⌊0.5 * sqrt alpha.length * z⌋) with
  | error e => rw [hl] at h; simp [Except.map] at h
  | ok p =>
    rw [hl] at h
    simp only [Except.map, Except.ok.injEq, Prod.mk.injEq, Option.some.injEq] at h
    obtain ⟨⟨h1, h2⟩, h3⟩ := h
    unfold medianCiLarge at hl
    simp only at hl
    set S := sortR alpha
    set i := (if (medianCiIndices S median (1 + ⌊0.5 * sqrt alpha.length * z⌋)).1 < 0 then
      (S.length : ℤ) + (medianCiIndices S median (1 + ⌊0.5 * sqrt alpha.length * z⌋)).1
      else (medianCiIndices S median (1 + ⌊0.5 * sqrt alpha.length * z⌋)).1)
    set j := (if (S.length : ℤ) < (medianCiIndices S median (1 + ⌊0.5 * sqrt alpha.length * z⌋)).2
      then (medianCiIndices S median (1 + ⌊0.5 * sqrt alpha.length * z⌋)).2 - (S.length : ℤ)
      else (medianCiIndices S median (1 + ⌊0.5 * sqrt alpha.length * z⌋)).2)
    cases hi : pyIndex S i with
    | error e => rw [hi] at hl; cases hl
    | ok x =>
      cases hj : pyIndex S j with
      | error e => rw [hi, hj] at hl; cases hl
      | ok y =>
        rw [hi, hj] at hl
        simp only [Except.bind, Except.map, Except.ok.injEq] at hl
        have hx := mem_sortR.1 (pyIndex_mem hi)
        have hy := mem_sortR.1 (pyIndex_mem hj)
        have hp : p = (x, y) ∨ p = (y, x) := by
          unfold swapIfOutside at hl
          split_ifs at hl
          · left; exact hl.symm
          · right; exact hl.symm
        subst h1 h2
        refine ⟨h3.symm, ⟨angmod2pi_nonneg _, angmod2pi_lt _⟩, ⟨angmod2pi_nonneg _, angmod2pi_lt _⟩,
          ?_, ?_, ?_⟩
        · rcases hp with rfl | rfl
          · exact ⟨x, hx, angmod2pi_cong _⟩
          · exact ⟨y, hy, angmod2pi_cong _⟩
        · rcases hp with rfl | rfl
          · exact ⟨y, hy, angmod2pi_cong _⟩
          · exact ⟨x, hx, angmod2pi_cong _⟩
        · intro hne
          have hne' : ¬ SameDir p.1 p.2 := fun hs => hne
            (((angmod2pi_cong p.1).trans hs).trans (angmod2pi_cong p.2).symm)
          rw [← C06_isWithin_iff_onArc, C06_isWithin_congr median median _ p.1 _ p.2
            (CongMod.refl _ _) (angmod2pi_cong _) (angmod2pi_cong _)]
          unfold swapIfOutside at hl
          split_ifs at hl with hc
          · rw [← hl]; exact hc
          · rw [← hl] at hne' ⊢
            rcases C06_isWithin_or_swap median x y (fun hs => hne' hs.symm) with h | h
            · exact absurd h hc
            · exact h

private lemma filter_range_down (p : ℕ → Bool) (n : ℕ)
    (hd : ∀ i j, i ≤ j → j < n → p j = true → p i = true) :
    (List.range n).filter p = List.range ((List.range n).countP p) := by
  induction n with
  | zero => simp
  | succ n ih =>
    have ih' := ih (fun i j h1 h2 h3 => hd i j h1 (by omega) h3)
    rw [List.range_succ, List.filter_append, List.countP_append, ih']
    by_cases hp : p n = true
    · have hall : (List.range n).countP p = n := by
        have : (List.range n).countP p = (List.range n).length := by
          rw [List.countP_eq_length]
          intro i hi
          exact hd i n (List.mem_range.1 hi).le (by omega) hp
        simpa using this
      rw [hall]
      simp [hp, List.range_succ]
    · simp [hp]

private lemma countP_range_getD (S : List ℝ) (q : ℝ → Bool) :
    (List.range S.length).countP (fun i => q (S.getD i 0)) = S.countP q := by
  have : S = (List.range S.length).map fun i => S.getD i 0 := by
    apply List.ext_getElem
    · simp
    · intro i h1 h2
      simp only [List.getElem_map, List.getElem_range]
      rw [List.getD_eq_getElem?_getD, List.getElem?_eq_getElem h1, Option.getD_some]
  conv_rhs => rw [this]
  rw [List.countP_map]
  rfl

/-- Number of observations strictly below `m`, compared to five decimals. -/
noncomputable def below (alpha : List ℝ) (m : ℝ) : ℕ :=
  alpha.countP fun a => decide (round5 a < round5 m)

private lemma idxMedian_eq (alpha : List ℝ) (m : ℝ) :
    idxMedian (sortR alpha) m =
      ((if below alpha m = 0 then alpha.length else below alpha m : ℕ) : ℤ) - 1 := by
  set S := sortR alpha with hS
  have hs : S.Pairwise (· ≤ ·) := sortR_sorted _
  have hlen : S.length = alpha.length := sortR_length _
  have hf := filter_range_down (fun i => decide (round5 (S.getD i 0) < round5 m)) S.length (by
    intro i j hij hj h
    simp only [decide_eq_true_eq] at h ⊢
    refine lt_of_le_of_lt (round5_mono ?_) h
    have hi : i < S.length := by omega
    rw [List.getD_eq_getElem?_getD, List.getD_eq_getElem?_getD, List.getElem?_eq_getElem hi,
      List.getElem?_eq_getElem hj, Option.getD_some, Option.getD_some]
    rcases Nat.eq_or_lt_of_le hij with rfl | h
    · exact le_rfl
    · exact List.pairwise_iff_getElem.1 hs i j hi hj h)
  have hc : (List.range S.length).countP (fun i => decide (round5 (S.getD i 0) < round5 m))
      = below alpha m := by
    rw [countP_range_getD S fun y => decide (round5 y < round5 m)]
    exact (sortR_perm alpha).countP_eq _
  rw [hc] at hf
  unfold idxMedian
  rw [hf]
  split
  · rename_i h
    rw [List.getLast?_eq_none_iff] at h
    have : below alpha m = 0 := by simpa using h
    rw [if_pos this, hlen]
  · rename_i i h
    have hne : below alpha m ≠ 0 := by
      intro h0; rw [h0] at h; simp at h
    rw [if_neg hne]
    obtain ⟨b, hb⟩ := Nat.exists_eq_succ_of_ne_zero hne
    rw [hb, List.range_succ, List.getLast?_append] at h
    simp at h
    rw [hb, ← h]
    push_cast; ring

private lemma pyIndex_ok {l : List ℝ} {i : ℤ} (h0 : 0 ≤ i) (h1 : i < l.length) :
    ∃ x, pyIndex l i = .ok x := by
  unfold pyIndex
  rw [if_pos h0, List.getElem?_eq_getElem (by omega : i.toNat < l.length)]
  exact ⟨_, rfl⟩

private lemma pyIndex_err {l : List ℝ} : pyIndex l l.length = .error .indexError := by
  unfold pyIndex
  rw [if_pos (by omega), List.getElem?_eq_none (by omega)]

/-- `n > 15`, offset between 1 and `n - 1` (the offset is `1 + ⌊½ √n z⌋`). With `b` the number of
observations below the median (`n` when there are none), the call raises `IndexError` exactly when
`b + offset` is `n + 1` (median not an observation) or `n` (median an observation, to five
decimals): the upper index then equals `n` and is not wrapped. -/
theorem C23_index_error_iff (median : ℝ) (alpha : List ℝ) (ci z : ℝ) (hn : 15 < alpha.length)
    (o : ℕ) (ho : (o : ℤ) = 1 + ⌊0.5 * sqrt alpha.length * z⌋) (ho1 : 1 ≤ o)
    (hon : o < alpha.length) :
    (∃ e, circMedianCi median alpha ci z = .error e) ↔
      ((round5 median ∉ alpha.map round5 ∧
          (if below alpha median = 0 then alpha.length else below alpha median) + o
            = alpha.length + 1) ∨
        (round5 median ∈ alpha.map round5 ∧
          (if below alpha median = 0 then alpha.length else below alpha median) + o
            = alpha.length)) := by
  set b := (if below alpha median = 0 then alpha.length else below alpha median) with hb
  have hbn : b ≤ alpha.length := by
    rw [hb]; split_ifs
    · exact le_rfl
    · exact List.countP_le_length
  have hb1 : 1 ≤ b := by rw [hb]; split_ifs <;> omega
  have hlen : (sortR alpha).length = alpha.length := sortR_length _
  have hmemiff : round5 median ∈ (sortR alpha).map round5 ↔ round5 median ∈ alpha.map round5 :=
    ((sortR_perm alpha).map round5).mem_iff
  have hidx : idxMedian (sortR alpha) median = (b : ℤ) - 1 := idxMedian_eq alpha median
  have hlb : ∃ x, pyIndex (sortR alpha) (if (b : ℤ) - 1 - o + 1 < 0 then
      (alpha.length : ℤ) + ((b : ℤ) - 1 - o + 1) else (b : ℤ) - 1 - o + 1) = .ok x := by
    apply pyIndex_ok
    · split_ifs <;> omega
    · rw [hlen]; split_ifs <;> omega
  obtain ⟨x, hx⟩ := hlb
  unfold circMedianCi
  simp only [if_pos hn, ← ho]
  unfold medianCiLarge medianCiIndices
  simp only [hidx, hlen]
  rw [hx]
  by_cases htie : round5 median ∈ alpha.map round5
  · rw [if_pos (hmemiff.2 htie)]
    by_cases he : b + o = alpha.length
    · have : (if (alpha.length : ℤ) < (b : ℤ) - 1 + o + 1 then (b : ℤ) - 1 + o + 1 - alpha.length
          else (b : ℤ) - 1 + o + 1) = ((sortR alpha).length : ℕ) := by
        rw [hlen]; split_ifs <;> omega
      rw [this, pyIndex_err]
      simp [Except.bind, Except.map, htie, he]
    · have hbt : b + o < 2 * alpha.length := by omega
      obtain ⟨y, hy⟩ := pyIndex_ok (l := sortR alpha) (i := if (alpha.length : ℤ) < (b : ℤ) - 1 + o + 1
          then (b : ℤ) - 1 + o + 1 - alpha.length else (b : ℤ) - 1 + o + 1)
        (by split_ifs <;> omega) (by rw [hlen]; split_ifs <;> omega)
      rw [hy]
      simp [Except.bind, Except.map, htie, he]
  · rw [if_neg (fun h => htie (hmemiff.1 h))]
    by_cases he : b + o = alpha.length + 1
    · have : (if (alpha.length : ℤ) < (b : ℤ) - 1 + o then (b : ℤ) - 1 + o - alpha.length
          else (b : ℤ) - 1 + o) = ((sortR alpha).length : ℕ) := by
        rw [hlen]; split_ifs <;> omega
      rw [this, pyIndex_err]
      simp [Except.bind, Except.map, htie, he]
    · obtain ⟨y, hy⟩ := pyIndex_ok (l := sortR alpha) (i := if (alpha.length : ℤ) < (b : ℤ) - 1 + o
          then (b : ℤ) - 1 + o - alpha.length else (b : ℤ) - 1 + o)
        (by split_ifs <;> omega) (by rw [hlen]; split_ifs <;> omega)
      rw [hy]
      simp [Except.bind, Except.map, htie, he]

/-- The raise happens: 16 observations 0, 1, …, 15 tenths of a radian, median 1.25, 95 % quantile
1.96 (offset 4, 13 observations below the median). -/
theorem C23_index_error_witness (ci : ℝ) :
    ∃ e, circMedianCi 1.25 ((List.range 16).map fun i : ℕ => (i : ℝ) / 10) ci 1.96 = .error e := by
  have hfl : ⌊(0.5 : ℝ) * sqrt ((((List.range 16).map fun i : ℕ => (i : ℝ) / 10).length : ℕ) : ℝ)
      * 1.96⌋ = 3 := by
    have : sqrt (((((List.range 16).map fun i : ℕ => (i : ℝ) / 10).length : ℕ) : ℝ)) = 4 := by
      rw [show ((((List.range 16).map fun i : ℕ => (i : ℝ) / 10).length : ℕ) : ℝ) = 4 ^ 2 by
        simp; norm_num]
      exact sqrt_sq (by norm_num)
    rw [this, Int.floor_eq_iff]
    norm_num
  have hr : ∀ i : ℕ, round5 ((i : ℝ) / 10) = (i : ℝ) / 10 := by
    intro i
    have := round5_of_grid (i * 10000)
    rw [show (((i * 10000 : ℤ)) : ℝ) / 10 ^ 5 = (i : ℝ) / 10 by push_cast; ring] at this
    exact this
  have hm : round5 (1.25 : ℝ) = 1.25 := by
    have := round5_of_grid 125000
    norm_num at this ⊢
    exact this
  have hbelow : below ((List.range 16).map fun i : ℕ => (i : ℝ) / 10) 1.25 = 13 := by
    unfold below
    rw [List.countP_map]
    simp only [Function.comp_def, hr, hm]
    norm_num [List.range_succ, List.countP_cons]
  have hmem : round5 (1.25 : ℝ) ∉ ((List.range 16).map fun i : ℕ => (i : ℝ) / 10).map round5 := by
    rw [List.map_map, hm]
    simp only [Function.comp_def, hr, List.mem_map, not_exists, not_and]
    intro i _ h
    have h2 : (i : ℝ) = 12.5 := by linarith
    have h3 : (2 * i : ℕ) = 25 := by
      have : ((2 * i : ℕ) : ℝ) = 25 := by push_cast; rw [h2]; norm_num
      exact_mod_cast this
    omega
  rw [C23_index_error_iff (1.25 : ℝ) _ ci 1.96 (by simp) 4 (by rw [hfl]; norm_num) (by norm_num)
    (by simp)]
  left
  refine ⟨hmem, ?_⟩
  rw [hbelow]
  simp

/-- For `n ≤ 15` neither the median nor the requested level matter: both are ignored (the level is
replaced by the tabulated one for `3 ≤ n`). -/
theorem C23_small_ignores_median (m m' ci ci' z z' : ℝ) (alpha : List ℝ)
    (hn : 3 ≤ alpha.length) (hn' : alpha.length ≤ 15) :
    circMedianCi m alpha ci z = circMedianCi m' alpha ci' z' := by
  unfold circMedianCi
  simp only [if_neg (not_lt.2 hn')]
  have : ∃ t, medianCiTable alpha.length = some t := by
    generalize alpha.length = n at hn hn'
    interval_cases n <;> exact ⟨_, rfl⟩
  obtain ⟨t, ht⟩ := this
  rw [ht]

/-- With ten observations placed symmetrically about direction 0 the interval does not contain 0:
positions are taken in the linear order of the raw values. -/
theorem C23_small_misses_median (ci z : ℝ) :
    ∃ lb ub level, circMedianCi 0 ([1, 2, 3, 4, 5, 35, 36, 37, 38, 39].map fun k : ℝ => k * (π / 20))
        ci z = .ok (some (lb, ub), level) ∧ ¬ OnArc 0 lb ub := by
  have hpi := pi_pos
  have hsort : sortR ([1, 2, 3, 4, 5, 35, 36, 37, 38, 39].map fun k : ℝ => k * (π / 20))
      = [1, 2, 3, 4, 5, 35, 36, 37, 38, 39].map fun k : ℝ => k * (π / 20) := by
    apply sortR_eq_self
    rw [List.pairwise_map]
    have : ([1, 2, 3, 4, 5, 35, 36, 37, 38, 39] : List ℝ).Pairwise (· ≤ ·) := by
      simp only [List.pairwise_cons, List.mem_cons, List.not_mem_nil, or_false, forall_eq_or_imp,
        forall_eq, List.Pairwise.nil, and_true]
      norm_num
    exact this.imp (by intro a b h; exact mul_le_mul_of_nonneg_right h (by positivity))
  refine ⟨2 * (π / 20), 38 * (π / 20), 0.978, ?_, ?_⟩
  · unfold circMedianCi
    simp only [hsort]
    simp only [List.length_map, List.length_cons, List.length_nil]
    norm_num [medianCiTable]
    constructor
    · rw [angmod2pi_eq_self] <;> linarith
    · rw [angmod2pi_eq_self] <;> linarith
  · rw [← C06_isWithin_iff_onArc]
    unfold isWithinCircularRange
    rw [pymod_eq_self two_pi_pos' (x := 0) le_rfl (by linarith),
      pymod_eq_self two_pi_pos' (x := 2 * (π / 20)) (by linarith) (by linarith),
      pymod_eq_self two_pi_pos' (x := 38 * (π / 20)) (by linarith) (by linarith)]
    simp only
    rw [if_pos (by linarith)]
    simp
    intro h
    linarith

end Verif.Props
