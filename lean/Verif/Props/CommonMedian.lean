import Verif.Props.Binomial
import Verif.Props.Median
import Verif.Lemmas.Groups

/-!
# C50: common median test
-/

set_option autoImplicit false

namespace Verif.Props

open Real Verif Verif.Spec

/-- Pearson's chi-square statistic of the `2 × k` table that, for every group, counts the `m g` members
with some property and the `g.length - m g` without. -/
noncomputable def pearson (gs : List (List ℝ)) (m : List ℝ → ℕ) : ℝ :=
  let N : ℝ := (gs.map fun g => (g.length : ℝ)).sum
  let M : ℝ := (gs.map fun g => (m g : ℝ)).sum
  (gs.map fun g =>
    ((m g : ℝ) - g.length * M / N) ^ 2 / (g.length * M / N)
      + (((g.length : ℝ) - m g) - g.length * (N - M) / N) ^ 2 / (g.length * (N - M) / N)).sum

private lemma zipWith_map_same' {α β γ δ : Type} (f : β → γ → δ) (g : α → β) (h : α → γ) (l : List α) :
    List.zipWith f (l.map g) (l.map h) = l.map fun x => f (g x) (h x) := by
  induction l with
  | nil => rfl
  | cons a l ih => simp [ih]

private lemma pearson_eq (gs : List (List ℝ)) (m : List ℝ → ℕ) (h0 : ∀ g ∈ gs, g ≠ []) (N M : ℝ)
    (hN : N = (gs.map fun g => (g.length : ℝ)).sum) (hM : M = (gs.map fun g => (m g : ℝ)).sum)
    (hM0 : 0 < M) (hMN : M < N) :
    pearson gs m = N ^ 2 / (M * (N - M)) * (gs.map fun g => (m g : ℝ) ^ 2 / g.length).sum - N * M / (N - M) := by
  have hN0 : 0 < N := by linarith
  have hNM : N - M ≠ 0 := by linarith
  have hterm : ∀ g ∈ gs, ((m g : ℝ) - g.length * M / N) ^ 2 / (g.length * M / N)
      + (((g.length : ℝ) - m g) - g.length * (N - M) / N) ^ 2 / (g.length * (N - M) / N)
      = N ^ 2 / (M * (N - M)) * ((m g : ℝ) ^ 2 / g.length) - 2 * N / (N - M) * m g + M / (N - M) * g.length := by
    intro g hg
    have hl : (g.length : ℝ) ≠ 0 := by
      have := List.length_pos_iff.2 (h0 g hg)
      positivity
    field_simp
    ring
  have hsum : ∀ l : List (List ℝ), (l.map fun g =>
      N ^ 2 / (M * (N - M)) * ((m g : ℝ) ^ 2 / g.length) - 2 * N / (N - M) * m g + M / (N - M) * g.length).sum
      = N ^ 2 / (M * (N - M)) * (l.map fun g => (m g : ℝ) ^ 2 / g.length).sum
        - 2 * N / (N - M) * (l.map fun g => (m g : ℝ)).sum + M / (N - M) * (l.map fun g => (g.length : ℝ)).sum := by
    intro l
    induction l with
    | nil => simp
    | cons a l ih => simp only [List.map_cons, List.sum_cons, ih]; ring
  unfold pearson
  simp only [← hN, ← hM]
  rw [List.map_congr_left hterm, hsum, ← hN, ← hM]
  ring

private lemma pearson_nonneg (gs : List (List ℝ)) (m : List ℝ → ℕ)
    (hM0 : 0 < (gs.map fun g => (m g : ℝ)).sum)
    (hMN : (gs.map fun g => (m g : ℝ)).sum < (gs.map fun g => (g.length : ℝ)).sum) : 0 ≤ pearson gs m := by
  unfold pearson
  refine List.sum_nonneg fun y hy => ?_
  obtain ⟨g, -, rfl⟩ := List.mem_map.1 hy
  have h1 : 0 < (gs.map fun g => (g.length : ℝ)).sum := by linarith
  have h2 : 0 < (gs.map fun g => (g.length : ℝ)).sum - (gs.map fun g => (m g : ℝ)).sum := by linarith
  positivity

private lemma pearson_zero (gs : List (List ℝ)) (m : List ℝ → ℕ) (h0 : ∀ g ∈ gs, g ≠ []) (N M : ℝ)
    (hN : N = (gs.map fun g => (g.length : ℝ)).sum) (hM : M = (gs.map fun g => (m g : ℝ)).sum)
    (hM0 : 0 < M) (hMN : M < N) :
    pearson gs m = 0 ↔ ∀ g ∈ gs, (m g : ℝ) / g.length = M / N := by
  have hN0 : 0 < N := by linarith
  have hNM : 0 < N - M := by linarith
  have hpos : ∀ g ∈ gs, (0 : ℝ) < g.length := fun g hg => by
    exact_mod_cast List.length_pos_iff.2 (h0 g hg)
  have hiff : ∀ g ∈ gs, ((m g : ℝ) / g.length = M / N ↔ (m g : ℝ) - g.length * M / N = 0) := by
    intro g hg
    have := hpos g hg
    constructor
    · intro h
      field_simp at h ⊢
      linarith
    · intro h
      field_simp at h ⊢
      linarith
  unfold pearson
  simp only [← hN, ← hM]
  constructor
  · intro h g hg
    have hall := all_zero_of_sum_eq_zero (l := gs.map fun g =>
      ((m g : ℝ) - g.length * M / N) ^ 2 / (g.length * M / N)
        + (((g.length : ℝ) - m g) - g.length * (N - M) / N) ^ 2 / (g.length * (N - M) / N))
      (by
        intro y hy
        obtain ⟨g, hg, rfl⟩ := List.mem_map.1 hy
        positivity) h
    have := hall _ (List.mem_map.2 ⟨g, hg, rfl⟩)
    have hp := hpos g hg
    have a1 : 0 ≤ ((m g : ℝ) - g.length * M / N) ^ 2 / (g.length * M / N) := by positivity
    have a2 : 0 ≤ (((g.length : ℝ) - m g) - g.length * (N - M) / N) ^ 2 / (g.length * (N - M) / N) := by positivity
    have a3 : ((m g : ℝ) - g.length * M / N) ^ 2 / (g.length * M / N) = 0 := by linarith
    rw [div_eq_zero_iff] at a3
    have a4 := a3.resolve_right (by positivity)
    exact (hiff g hg).2 (pow_eq_zero_iff two_ne_zero |>.1 a4)
  · intro h
    have : (gs.map fun g => ((m g : ℝ) - g.length * M / N) ^ 2 / (g.length * M / N)
        + (((g.length : ℝ) - m g) - g.length * (N - M) / N) ^ 2 / (g.length * (N - M) / N))
        = gs.map fun _ => (0 : ℝ) := by
      refine List.map_congr_left fun g hg => ?_
      have e := (hiff g hg).1 (h g hg)
      have e2 : ((g.length : ℝ) - m g) - g.length * (N - M) / N = 0 := by
        have : (g.length : ℝ) * (N - M) / N = g.length - g.length * M / N := by field_simp
        rw [this]; linarith
      rw [e, e2]; simp
    rw [this]; simp

/-- With `c` the circular median of the pooled sample: the test is refused when no observation, or
every one, is on the clockwise side of `c`. Otherwise the statistic is Pearson's chi-square of the table
that counts, for every group, the observations on the clockwise side of `c`; it is non-negative, and
zero exactly when the proportion is the same in all groups. The null hypothesis is rejected when the p
value is less than `alpha`, and then, and only then, no common median is reported. -/
theorem C50_common_median (gs : List (List ℝ)) (alpha : ℝ) (cdf : ℝ → ℕ → ℝ) (init : List (Option ℝ)) (c : ℝ)
    (ha : 0 < alpha ∧ alpha < 1) (hk : 2 ≤ gs.length) (h0 : ∀ g ∈ gs, g ≠ [])
    (hc : circMedian gs.flatten (ones gs.flatten) "deviation" true "all" init = .ok (some [c])) :
    ((countBefore gs.flatten c = 0 ∨ countBefore gs.flatten c = gs.flatten.length) →
      commonMedianTest gs alpha cdf init = .error .valueError) ∧
    (0 < countBefore gs.flatten c → countBefore gs.flatten c < gs.flatten.length →
      ∃ r, commonMedianTest gs alpha cdf init = .ok r ∧
        r.statistic = pearson gs (fun g => countBefore g c) ∧ 0 ≤ r.statistic ∧
        (r.statistic = 0 ↔ ∀ g ∈ gs, ∀ g' ∈ gs,
          (countBefore g c : ℝ) / g.length = (countBefore g' c : ℝ) / g'.length) ∧
        r.pval = 1 - cdf r.statistic (gs.length - 1) ∧ (r.reject = true ↔ r.pval < alpha) ∧
        (r.reject = true → r.commonMedian = none) ∧ (r.reject = false → r.commonMedian = some c)) := by
  have hN : (gs.map fun g => (g.length : ℝ)).sum = (gs.flatten.length : ℝ) := by
    clear hk h0 hc
    induction gs with
    | nil => simp
    | cons g gs ih => simp [ih]
  have hM : (gs.map fun g => (countBefore g c : ℝ)).sum = (countBefore gs.flatten c : ℝ) := by
    clear hk h0 hc hN
    unfold countBefore
    induction gs with
    | nil => simp
    | cons g gs ih => simp [ih]
  have hempty : ¬ ∃ g ∈ gs, g.length = 0 := by
    rintro ⟨g, hg, h⟩
    exact h0 g hg (List.length_eq_zero_iff.1 h)
  have hne : gs ≠ [] := by rintro rfl; simp at hk
  have hmap : commonMedianTest gs alpha cdf init =
      (commonMedianStat (gs.map List.length) (gs.map fun g => countBefore g c)).map fun P =>
        ⟨if 1 - cdf P (gs.length - 1) < alpha then none else some c, P, 1 - cdf P (gs.length - 1),
          decide (1 - cdf P (gs.length - 1) < alpha)⟩ := by
    unfold commonMedianTest
    rw [if_neg (not_not.2 ha), if_neg (by omega), if_neg hempty, hc]
    simp only [n1_eq]
    rfl
  have hstat : commonMedianStat (gs.map List.length) (gs.map fun g => countBefore g c) =
      if (countBefore gs.flatten c : ℝ) = 0 ∨ (countBefore gs.flatten c : ℝ) = gs.flatten.length then .error .valueError
      else .ok ((gs.flatten.length : ℝ) ^ 2 / ((countBefore gs.flatten c : ℝ) * (gs.flatten.length - countBefore gs.flatten c))
        * (gs.map fun g => (countBefore g c : ℝ) ^ 2 / g.length).sum
        - gs.flatten.length * countBefore gs.flatten c / (gs.flatten.length - countBefore gs.flatten c)) := by
    unfold commonMedianStat
    simp only [List.map_map, zipWith_map_same']
    rw [show (gs.map ((fun n : ℕ => (n : ℝ)) ∘ List.length)).sum = _ from hN,
      show (gs.map ((fun n : ℕ => (n : ℝ)) ∘ fun g => countBefore g c)).sum = _ from hM]
  rw [hmap, hstat]
  constructor
  · intro h
    rw [if_pos (by rcases h with h | h <;> rw [h] <;> simp)]
    rfl
  · intro h1 h2
    have h1' : (0 : ℝ) < countBefore gs.flatten c := by exact_mod_cast h1
    have h2' : (countBefore gs.flatten c : ℝ) < gs.flatten.length := by exact_mod_cast h2
    rw [if_neg (by push Not; exact ⟨h1'.ne', h2'.ne⟩)]
    have hp := pearson_eq gs (fun g => countBefore g c) h0 _ _ hN.symm hM.symm h1' h2'
    rw [← hp]
    refine ⟨_, rfl, rfl, ?_, ?_, rfl, ?_, ?_, ?_⟩
    · exact pearson_nonneg gs (fun g => countBefore g c) (by rw [hM]; exact h1') (by rw [hM, hN]; exact h2')
    · simp only
      rw [pearson_zero gs (fun g => countBefore g c) h0 _ _ hN.symm hM.symm h1' h2']
      constructor
      · intro h g hg g' hg'
        rw [h g hg, h g' hg']
      · intro h
        obtain ⟨g0, hg0⟩ := List.exists_mem_of_ne_nil gs hne
        have hpos : ∀ g ∈ gs, (0 : ℝ) < g.length := fun g hg => by
          exact_mod_cast List.length_pos_iff.2 (h0 g hg)
        have e : ∀ g ∈ gs, (countBefore g c : ℝ) = (countBefore g0 c : ℝ) / g0.length * g.length := by
          intro g hg
          rw [← h g hg g0 hg0, div_mul_cancel₀ _ (hpos g hg).ne']
        intro g hg
        rw [← hM, ← hN, List.map_congr_left e, List.sum_map_mul_left, mul_div_assoc,
          div_self (by rw [hN]; linarith), mul_one, h g hg g0 hg0]
    · simp
    · simp only [decide_eq_true_eq]
      intro h; rw [if_pos h]
    · simp only [decide_eq_false_iff_not]
      intro h; rw [if_neg h]

/-- Other inputs that are refused: a level outside (0, 1), fewer than two groups, an empty group, or a
pooled sample without a circular median. -/
theorem C50_refused (gs : List (List ℝ)) (alpha : ℝ) (cdf : ℝ → ℕ → ℝ) (init : List (Option ℝ))
    (h : ¬ (0 < alpha ∧ alpha < 1) ∨ gs.length < 2 ∨ (∃ g ∈ gs, g = []) ∨
      circMedian gs.flatten (ones gs.flatten) "deviation" true "all" init = .ok none) :
    commonMedianTest gs alpha cdf init = .error .valueError := by
  unfold commonMedianTest
  by_cases h1 : ¬ (0 < alpha ∧ alpha < 1)
  · rw [if_pos h1]
  rw [if_neg h1]
  by_cases h2 : gs.length < 2
  · rw [if_pos h2]
  rw [if_neg h2]
  by_cases h3 : ∃ g ∈ gs, g.length = 0
  · rw [if_pos h3]
  rw [if_neg h3]
  have h4 : circMedian gs.flatten (ones gs.flatten) "deviation" true "all" init = .ok none := by
    rcases h with h | h | ⟨g, hg, h⟩ | h
    · exact absurd h h1
    · exact absurd h h2
    · exact absurd ⟨g, hg, by rw [h]; rfl⟩ h3
    · exact h
  rw [h4]
  have : commonMedianStat (gs.map List.length) (gs.map fun _ => 0) = .error .valueError := by
    unfold commonMedianStat
    rw [if_pos]
    left
    simp
  simp only [Except.bind]
  exact (congrArg _ this).trans rfl

/-- The hypotheses of `C50_common_median` can be met: two groups, one of them entirely on the clockwise
side of a direction between them. -/
example : 0 < countBefore [[-1, -2 / 3], [1, 2]].flatten 0 ∧
    countBefore [[-1, -2 / 3], [1, 2]].flatten 0 < [[-1, -2 / 3], ([1, 2] : List ℝ)].flatten.length := by
  have hpi := Real.pi_gt_three
  have s1 : sin (-1 : ℝ) < 0 := sin_neg_of_neg_of_neg_pi_lt (by norm_num) (by linarith)
  have s2 : sin (-2 / 3 : ℝ) < 0 := sin_neg_of_neg_of_neg_pi_lt (by norm_num) (by linarith)
  have s3 : 0 < sin (1 : ℝ) := sin_pos_of_pos_of_lt_pi (by norm_num) (by linarith)
  have s4 : 0 < sin (2 : ℝ) := sin_pos_of_pos_of_lt_pi (by norm_num) (by linarith)
  unfold countBefore
  simp only [List.flatten_cons, List.flatten_nil, List.append_nil, List.cons_append, List.nil_append,
    List.countP_cons, List.countP_nil, sub_zero, s1, s2, not_lt.2 s3.le, not_lt.2 s4.le]
  simp

/-! ### Symmetries -/

private lemma commonMedianTest_valid {gs : List (List ℝ)} {alpha : ℝ} {cdf : ℝ → ℕ → ℝ} {init : List (Option ℝ)} {c : ℝ}
    (ha : 0 < alpha ∧ alpha < 1) (hk : 2 ≤ gs.length) (h0 : ∀ g ∈ gs, g ≠ [])
    (hc : circMedian gs.flatten (ones gs.flatten) "deviation" true "all" init = .ok (some [c])) :
    commonMedianTest gs alpha cdf init =
      (commonMedianStat (gs.map List.length) (gs.map fun g => g.countP fun a => decide (centerDist a c < 0))).map fun P =>
        ⟨if 1 - cdf P (gs.length - 1) < alpha then none else some c, P, 1 - cdf P (gs.length - 1),
          decide (1 - cdf P (gs.length - 1) < alpha)⟩ := by
  unfold commonMedianTest
  rw [if_neg (not_not.2 ha), if_neg (by omega), if_neg (by
    rintro ⟨g, hg, h⟩
    exact h0 g hg (List.length_eq_zero_iff.1 h)), hc]
  rfl

private lemma centerDist_turn {a b c d t : ℝ} (h1 : SameDir b (a + t)) (h2 : SameDir d (c + t)) :
    centerDist b d < 0 ↔ centerDist a c < 0 := by
  rw [centerDist_neg_iff, centerDist_neg_iff]
  obtain ⟨k, rfl⟩ := h1
  obtain ⟨l, rfl⟩ := h2
  rw [show a + t + k * (2 * π) - (c + t + l * (2 * π)) = a - c + ((k - l : ℤ) : ℝ) * (2 * π) by push_cast; ring,
    sin_add_int_mul_two_pi]

/-- C50. Turning all observations by the same angle (observations in one turn, wrapped back into it) changes neither
refusal, statistic, p value nor decision; the common median turns with the data. The samples must not coincide up to
the tolerance of `circ_median`. -/
theorem C50_rotate (gs : List (List ℝ)) (t alpha : ℝ) (cdf : ℝ → ℕ → ℝ) (init : List (Option ℝ))
    (hinit : init.length = gs.flatten.length) (hco : allCoincide gs.flatten (ones gs.flatten) = false)
    (hr : ∀ g ∈ gs, ∀ a ∈ g, 0 ≤ a ∧ a < 2 * π) :
    let hs := gs.map fun g => g.map fun a => angmod2pi (a + t)
    (commonMedianTest hs alpha cdf init).map (fun r => (r.statistic, r.pval, r.reject))
      = (commonMedianTest gs alpha cdf init).map (fun r => (r.statistic, r.pval, r.reject)) ∧
    ∀ r, commonMedianTest gs alpha cdf init = .ok r → ∀ c, r.commonMedian = some c →
      ∃ r' c', commonMedianTest hs alpha cdf init = .ok r' ∧ r'.commonMedian = some c' ∧ SameDir c' (c + t) := by
  intro hs
  have hl : hs.length = gs.length := List.length_map ..
  have hfl : hs.flatten = gs.flatten.map fun a => angmod2pi (a + t) := List.map_flatten.symm
  have bad : (¬ (0 < alpha ∧ alpha < 1) ∨ gs.length < 2 ∨ (∃ g ∈ gs, g = []) ∨
      (circMedian gs.flatten (ones gs.flatten) "deviation" true "all" init = .ok none ∧
        circMedian hs.flatten (ones hs.flatten) "deviation" true "all" init = .ok none)) →
      commonMedianTest gs alpha cdf init = .error .valueError ∧ commonMedianTest hs alpha cdf init = .error .valueError := by
    intro h
    constructor
    · exact C50_refused gs alpha cdf init (h.imp_right (Or.imp_right (Or.imp_right And.left)))
    · refine C50_refused hs alpha cdf init ?_
      rcases h with h | h | ⟨g, hg, rfl⟩ | h
      · exact Or.inl h
      · exact Or.inr (Or.inl (by omega))
      · exact Or.inr (Or.inr (Or.inl ⟨[], List.mem_map.2 ⟨[], hg, rfl⟩, rfl⟩))
      · exact Or.inr (Or.inr (Or.inr h.2))
  have close : (commonMedianTest gs alpha cdf init = .error .valueError ∧
      commonMedianTest hs alpha cdf init = .error .valueError) → (commonMedianTest hs alpha cdf init).map
        (fun r => (r.statistic, r.pval, r.reject))
      = (commonMedianTest gs alpha cdf init).map (fun r => (r.statistic, r.pval, r.reject)) ∧
    ∀ r, commonMedianTest gs alpha cdf init = .ok r → ∀ c, r.commonMedian = some c →
      ∃ r' c', commonMedianTest hs alpha cdf init = .ok r' ∧ r'.commonMedian = some c' ∧ SameDir c' (c + t) := by
    rintro ⟨h1, h2⟩
    rw [h1, h2]
    exact ⟨rfl, fun r h => by cases h⟩
  by_cases ha : 0 < alpha ∧ alpha < 1
  swap
  · exact close (bad (Or.inl ha))
  by_cases hk : gs.length < 2
  · exact close (bad (Or.inr (Or.inl hk)))
  by_cases h0 : ∃ g ∈ gs, g = []
  · exact close (bad (Or.inr (Or.inr (Or.inl h0))))
  push Not at h0
  have hne : gs.flatten ≠ [] := by
    rcases gs with _ | ⟨g, gs⟩
    · simp at hk
    · simp [h0 g (by simp)]
  rcases C18_deviation_rotate gs.flatten init hne hinit hco (fun a ha => by
    obtain ⟨g, hg, hag⟩ := List.mem_flatten.1 ha
    exact hr g hg a hag) t hs.flatten hfl with h | ⟨m, m', h1, h2, h3⟩
  · exact close (bad (Or.inr (Or.inr (Or.inr h))))
  · have h0' : ∀ g ∈ hs, g ≠ [] := fun g hg => by
      obtain ⟨g', hg', rfl⟩ := List.mem_map.1 hg
      simpa using h0 g' hg'
    rw [commonMedianTest_valid ha (by omega) h0 h1, commonMedianTest_valid ha (by omega) h0' h2, hl]
    have e1 : hs.map List.length = gs.map List.length := by
      simp only [hs, List.map_map]
      exact List.map_congr_left fun g _ => by simp
    have e2 : (hs.map fun g => g.countP fun a => decide (centerDist a m' < 0))
        = gs.map fun g => g.countP fun a => decide (centerDist a m < 0) := by
      simp only [hs, List.map_map]
      refine List.map_congr_left fun g _ => ?_
      rw [Function.comp_apply, List.countP_map]
      refine List.countP_congr fun a _ => ?_
      simp only [Function.comp_apply, decide_eq_true_eq]
      exact centerDist_turn (angmod2pi_cong _) h3
    rw [e1, e2]
    cases commonMedianStat (gs.map List.length) (gs.map fun g => g.countP fun a => decide (centerDist a m < 0)) with
    | error e => exact ⟨rfl, fun r h => by cases h⟩
    | ok P =>
      refine ⟨rfl, fun r h c hc => ?_⟩
      cases h
      simp only at hc
      split_ifs at hc with hp
      cases hc
      exact ⟨_, m', rfl, by simp only [if_neg hp], h3⟩

/-- C50. The order in which the samples are listed does not matter, nor does the order inside them (samples that do
not coincide up to the tolerance of `circ_median`). -/
theorem C50_order (gs hs : List (List ℝ)) (alpha : ℝ) (cdf : ℝ → ℕ → ℝ) (init init' : List (Option ℝ))
    (hinit : init.length = gs.flatten.length) (hinit' : init'.length = hs.flatten.length) (h : gs.Perm hs) (r : ℝ)
    (hr : circR gs.flatten (ones gs.flatten) = some r) (hlt : r < 1 - (1 / 10 ^ 5 + 1 / 10 ^ 12)) :
    commonMedianTest hs alpha cdf init' = commonMedianTest gs alpha cdf init := by
  have hl : hs.length = gs.length := h.length_eq.symm
  unfold commonMedianTest
  by_cases ha : ¬ (0 < alpha ∧ alpha < 1)
  · rw [if_pos ha, if_pos ha]
  rw [if_neg ha, if_neg ha]
  by_cases hk : gs.length < 2
  · rw [if_pos hk, if_pos (by omega)]
  rw [if_neg hk, if_neg (by omega)]
  have he : (∃ g ∈ hs, g.length = 0) ↔ ∃ g ∈ gs, g.length = 0 := by simp only [h.mem_iff]
  by_cases h0 : ∃ g ∈ gs, g.length = 0
  · rw [if_pos h0, if_pos (he.2 h0)]
  rw [if_neg h0, if_neg (mt he.1 h0)]
  have hne : gs.flatten ≠ [] := by
    rcases gs with _ | ⟨g, gs⟩
    · simp at hk
    · push Not at h0
      have := h0 g (by simp)
      intro hc
      rw [List.flatten_cons, List.append_eq_nil_iff] at hc
      exact this (by rw [hc.1]; rfl)
  rw [← C85_median_perm gs.flatten hs.flatten init init' hne hinit hinit' h.flatten r hr hlt]
  congr 1
  funext med
  have hstat : ∀ f : List ℝ → ℕ, commonMedianStat (hs.map List.length) (hs.map f)
      = commonMedianStat (gs.map List.length) (gs.map f) := fun f => by
    unfold commonMedianStat
    have hs1 : ∀ k : List ℝ → ℕ, ((hs.map k).map fun n : ℕ => (n : ℝ)).sum = ((gs.map k).map fun n : ℕ => (n : ℝ)).sum :=
      fun k => ((h.symm.map k).map _).sum_eq
    have hs2 : (List.zipWith (fun (a n : ℕ) => (a : ℝ) ^ 2 / n) (hs.map f) (hs.map List.length)).sum
        = (List.zipWith (fun (a n : ℕ) => (a : ℝ) ^ 2 / n) (gs.map f) (gs.map List.length)).sum := by
      rw [zipWith_map_same', zipWith_map_same']
      exact (h.symm.map _).sum_eq
    simp only [hs1, hs2]
  simp only [hstat, hl]

/-- Samples that meet the hypotheses of `C50_rotate` and `C50_order`: two pairs of directions a quarter turn apart. -/
example : circR [[0, π / 2], [π / 2, π]].flatten (ones [[0, π / 2], [π / 2, π]].flatten) = some (1 / 2) ∧
    allCoincide [[0, π / 2], [π / 2, π]].flatten (ones [[0, π / 2], [π / 2, π]].flatten) = false := by
  have hl : [[0, π / 2], [π / 2, π]].flatten = [0, π / 2, π / 2, π] := rfl
  have hres : resultant [0, π / 2, π / 2, π] = 2 * Complex.I := by
    have h2 : Complex.exp (((π / 2 : ℝ) : ℂ) * Complex.I) = Complex.I := by
      push_cast; exact Complex.exp_pi_div_two_mul_I
    have h3 : Complex.exp ((π : ℂ) * Complex.I) = -1 := Complex.exp_pi_mul_I
    simp only [resultant, List.map_cons, List.map_nil, List.sum_cons, List.sum_nil, h2, h3, Complex.ofReal_zero,
      zero_mul, Complex.exp_zero]
    ring
  have hR : circR [0, π / 2, π / 2, π] (ones [0, π / 2, π / 2, π]) = some (1 / 2) := by
    rw [circR_ones _ (by simp), hres, norm_mul, Complex.norm_I, Complex.norm_ofNat]
    simp only [List.length_cons, List.length_nil]
    norm_num
  rw [hl]
  refine ⟨hR, ?_⟩
  unfold allCoincide
  rw [hR]
  simp only [decide_eq_false_iff_not, isclose, rtolDefault, abs_one, mul_one]
  norm_num [abs_of_neg]

end Verif.Props
