import Verif.Model.HypOne
import Verif.Lemmas.Descriptive
import Mathlib.Analysis.Real.Pi.Bounds
import Mathlib.Data.Nat.Choose.Sum

/-!
# C34, C35: Hodges-Ajne omnibus test and Batschelet test
-/

set_option autoImplicit false

namespace Verif.Props

open Verif Verif.Spec Real

private lemma half_iff (x : ℝ) : (0 < angmod2pi x ∧ angmod2pi x < π) ↔ 0 < sin x := by
  rw [← sin_angmod2pi x]
  have h0 := angmod2pi_nonneg x
  have h1 := angmod2pi_lt x
  constructor
  · rintro ⟨h2, h3⟩; exact sin_pos_of_pos_of_lt_pi h2 h3
  · intro h
    refine ⟨lt_of_le_of_ne h0 (fun h2 => by rw [← h2, sin_zero] at h; exact lt_irrefl _ h), ?_⟩
    by_contra h3
    have := sin_nonpos_of_nonpos_of_neg_pi_le (x := angmod2pi x - 2 * π) (by linarith)
      (by linarith [not_lt.1 h3])
    rw [sin_sub_two_pi] at this
    linarith

/-- Number of observations that are not strictly in the half circle that ends, counter-clockwise, at
the line (`0 < sin(line - a)` says that `a` is up to half a turn behind the line). -/
noncomputable def outside (alpha : List ℝ) (line : ℝ) : ℕ :=
  alpha.countP fun a => decide (sin (line - a) ≤ 0)

private lemma omnibusRight_eq (alpha : List ℝ) (line : ℝ) :
    omnibusRight alpha line = outside alpha line := by
  unfold omnibusRight outside
  have h := List.length_eq_countP_add_countP (fun a => decide (sin (line - a) ≤ 0)) (l := alpha)
  have h2 : (alpha.countP fun a => decide (0 < angmod2pi (line - a)) &&
      decide (angmod2pi (line - a) < π)) =
      alpha.countP fun a => decide ¬ (decide (sin (line - a) ≤ 0) = true) := by
    congr 1
    funext a
    have := half_iff (line - a)
    rw [← not_le (a := sin (line - a))] at this
    rw [← Bool.decide_and]
    simp only [decide_eq_true_eq, this]
  rw [h2]
  omega

lemma minZ_some {l : List ℤ} {m : ℤ} (h : minZ l = some m) : m ∈ l ∧ ∀ x ∈ l, m ≤ x := by
  cases l with
  | nil => cases h
  | cons x xs =>
    simp only [minZ, Option.some.injEq] at h
    subst h
    induction xs generalizing x with
    | nil => simp
    | cons y ys ih =>
      simp only [List.foldl_cons]
      obtain ⟨h1, h2⟩ := ih (min x y)
      constructor
      · rcases List.mem_cons.1 h1 with h | h
        · rcases min_choice x y with h' | h'
          · rw [h, h']; simp
          · rw [h, h']; simp
        · exact List.mem_cons_of_mem _ (List.mem_cons_of_mem _ h)
      · intro z hz
        have hm := h2 (min x y) (by simp)
        rcases List.mem_cons.1 hz with rfl | hz
        · exact hm.trans (min_le_left _ _)
        rcases List.mem_cons.1 hz with rfl | hz
        · exact hm.trans (min_le_right _ _)
        · exact h2 z (List.mem_cons_of_mem _ hz)

/-- The statistic `m` is the least number of observations outside the half circle ending at one of
the scanned lines `i π/(360 scale)`; the sample and the scale must be valid. -/
theorem C34_m_is_min (alpha : List ℝ) (scale : ℤ) (hs : 0 < scale) (hne : alpha ≠ []) :
    ∃ res, omnibusTest alpha scale = .ok res ∧
      (∃ i : ℕ, (i : ℤ) < 360 * scale ∧ res.m = outside alpha (i * (π / (360 * scale)))) ∧
      ∀ i : ℕ, (i : ℤ) < 360 * scale → res.m ≤ outside alpha (i * (π / (360 * scale))) := by
  obtain ⟨k, rfl⟩ := Int.eq_ofNat_of_zero_le hs.le
  have hk : 0 < k := by exact_mod_cast hs
  unfold omnibusTest
  rw [if_neg (not_le.2 hs), if_neg (by simpa using hne)]
  simp only [Int.toNat_natCast]
  set L := ((List.range (k * 360)).map fun i : ℕ => (i : ℝ) * (π / (k * 360 : ℕ))).map
    (omnibusRight alpha) with hL
  have hcast : ((k * 360 : ℕ) : ℝ) = 360 * ((k : ℤ) : ℝ) := by push_cast; ring
  cases hm : minZ L with
  | none =>
    exfalso
    cases hL' : L with
    | nil =>
      rw [hL] at hL'
      simp at hL'
      omega
    | cons x xs => rw [hL'] at hm; cases hm
  | some m =>
    obtain ⟨h1, h2⟩ := minZ_some hm
    refine ⟨_, rfl, ?_, ?_⟩
    · have hmm : (omnibusOf alpha.length m).m = m := by unfold omnibusOf; simp only; split_ifs <;> rfl
      rw [hmm]
      rw [hL, List.map_map] at h1
      obtain ⟨i, hi, he⟩ := List.mem_map.1 h1
      refine ⟨i, by have := List.mem_range.1 hi; omega, ?_⟩
      rw [← he, ← hcast]
      simp only [Function.comp_apply, omnibusRight_eq]
    · intro i hi
      have hmm : (omnibusOf alpha.length m).m = m := by unfold omnibusOf; simp only; split_ifs <;> rfl
      rw [hmm]
      apply h2
      rw [hL, List.map_map]
      refine List.mem_map.2 ⟨i, List.mem_range.2 (by omega), ?_⟩
      rw [← hcast]
      simp only [Function.comp_apply, omnibusRight_eq]

/-- The p value: with `n > 2m` it is `(n-2m) C(n,m) / 2^(n-1)`, and `A = π√n / (2(n-2m))`; with
`n ≤ 2m` it is 0 and `A` is infinite. -/
theorem C34_pvalue (alpha : List ℝ) (scale : ℤ) (res : OmnibusResult)
    (h : omnibusTest alpha scale = .ok res) :
    ∃ m : ℕ, res.m = m ∧ m ≤ alpha.length ∧
      (2 * m < alpha.length →
        res.pval = ((alpha.length : ℝ) - 2 * m) * (alpha.length.choose m) / 2 ^ (alpha.length - 1) ∧
        res.A = some (π * sqrt alpha.length / (2 * ((alpha.length : ℝ) - 2 * m)))) ∧
      (alpha.length ≤ 2 * m → res.pval = 0 ∧ res.A = none) := by
  unfold omnibusTest at h
  split_ifs at h with h0 h1
  simp only at h
  cases hm : minZ (((List.range (scale.toNat * 360)).map fun i : ℕ =>
      (i : ℝ) * (π / (scale.toNat * 360 : ℕ))).map (omnibusRight alpha)) with
  | none => rw [hm] at h; cases h
  | some m' =>
    rw [hm] at h
    simp only [Except.ok.injEq] at h
    obtain ⟨hmem, -⟩ := minZ_some hm
    obtain ⟨line, -, he⟩ := List.mem_map.1 hmem
    rw [omnibusRight_eq] at he
    set m := outside alpha line with hmd
    have hml : m ≤ alpha.length := List.countP_le_length
    subst he
    set n := alpha.length with hn
    refine ⟨m, ?_, hml, ?_, ?_⟩
    · rw [← h]; unfold omnibusOf; simp only; split_ifs <;> rfl
    · intro hlt
      have hd : ¬ ((n : ℤ) - 2 * (m : ℤ) ≤ 0) := by omega
      have hd' : (0 : ℝ) < (n : ℝ) - 2 * m := by
        have : (2 * m : ℝ) < n := by exact_mod_cast hlt
        linarith
      rw [← h, omnibusOf, if_neg hd]
      push_cast
      refine ⟨?_, rfl⟩
      have g1 : Real.Gamma ((n : ℝ) + 1) = (n.factorial : ℝ) := Real.Gamma_nat_eq_factorial n
      have g2 : Real.Gamma ((m : ℝ) + 1) = (m.factorial : ℝ) := Real.Gamma_nat_eq_factorial m
      have g3 : Real.Gamma ((n : ℝ) - m + 1) = ((n - m).factorial : ℝ) := by
        rw [← Real.Gamma_nat_eq_factorial, Nat.cast_sub hml]
      have f : ∀ k : ℕ, (0 : ℝ) < (k.factorial : ℝ) := fun k => by exact_mod_cast k.factorial_pos
      rw [g1, g2, g3, abs_of_pos (f _), abs_of_pos (f _), abs_of_pos (f _)]
      have h2 : ((n : ℝ) - 1) * log 2 = log (2 ^ (n - 1)) := by
        rw [log_pow, Nat.cast_sub (by omega)]; simp
      rw [h2, ← log_mul hd'.ne' (f n).ne', ← log_div (mul_pos hd' (f n)).ne' (f m).ne',
        ← log_div (div_pos (mul_pos hd' (f n)) (f m)).ne' (f (n - m)).ne',
        ← log_div (div_pos (div_pos (mul_pos hd' (f n)) (f m)) (f (n - m))).ne' (by positivity),
        exp_log (div_pos (div_pos (div_pos (mul_pos hd' (f n)) (f m)) (f (n - m))) (by positivity)),
        Nat.cast_choose ℝ hml]
      field_simp
    · intro hle
      have hd : (n : ℤ) - 2 * (m : ℤ) ≤ 0 := by omega
      rw [← h, omnibusOf, if_pos hd]
      exact ⟨rfl, rfl⟩

/-- Invalid input is refused. -/
theorem C34_refused (alpha : List ℝ) (scale : ℤ) (h : scale ≤ 0 ∨ alpha = []) :
    omnibusTest alpha scale = .error .valueError := by
  unfold omnibusTest
  rcases h with h | rfl
  · rw [if_pos h]
  · split_ifs <;> simp_all

private lemma outside_replicate (a line : ℝ) (k : ℕ) :
    outside (List.replicate k a) line = if sin (line - a) ≤ 0 then k else 0 := by
  unfold outside
  rw [List.countP_replicate]
  simp

private lemma outside_append (a b : List ℝ) (line : ℝ) :
    outside (a ++ b) line = outside a line + outside b line := by
  unfold outside; rw [List.countP_append]

/-- The scan covers only half circles ending at lines in `[0, π)`, on one side, so the test is not
rotation invariant: six observations at `π - 1/2` and four at `π + 1/2` (all within an arc of one
radian) give p = 105/128, while the same data turned by half a turn give p = 5/256. -/
theorem C34_not_rotation_invariant :
    ∃ res res' : OmnibusResult,
      omnibusTest (List.replicate 6 (π - 1 / 2) ++ List.replicate 4 (π + 1 / 2)) 1 = .ok res ∧
      omnibusTest (List.replicate 6 (-(1 / 2)) ++ List.replicate 4 (1 / 2)) 1 = .ok res' ∧
      res.pval = 105 / 128 ∧ res'.pval = 5 / 256 := by
  have hpi3 := pi_gt_three
  have hpi4 := pi_le_four
  set D := List.replicate 6 (π - 1 / 2) ++ List.replicate 4 (π + 1 / 2) with hD
  set D' := List.replicate 6 (-(1 / 2) : ℝ) ++ List.replicate 4 (1 / 2) with hD'
  obtain ⟨res, hok, ⟨i, hi, hri⟩, hmin⟩ := C34_m_is_min D 1 (by norm_num) (by simp [hD])
  obtain ⟨res', hok', ⟨i', hi', hri'⟩, hmin'⟩ := C34_m_is_min D' 1 (by norm_num) (by simp [hD'])
  have hlen : D.length = 10 := by simp [hD]
  have hlen' : D'.length = 10 := by simp [hD']
  have hline : ∀ i : ℕ, (i : ℤ) < 360 * 1 →
      0 ≤ (i : ℝ) * (π / (360 * ((1 : ℤ) : ℝ))) ∧ (i : ℝ) * (π / (360 * ((1 : ℤ) : ℝ))) < π := by
    intro i hi
    have : (i : ℝ) < 360 := by
      have : i < 360 := by omega
      exact_mod_cast this
    constructor
    · positivity
    · rw [show (i : ℝ) * (π / (360 * ((1 : ℤ) : ℝ))) = i / 360 * π by push_cast; ring]
      have : (i : ℝ) / 360 < 1 := by rw [div_lt_one (by norm_num)]; exact this
      nlinarith
  have hge : ∀ line : ℝ, 0 ≤ line → line < π → 4 ≤ outside D line := by
    intro line h0 h1
    rw [hD, outside_append, outside_replicate, outside_replicate]
    rcases lt_or_ge line (π - 1 / 2) with h | h
    · rw [if_pos (sin_nonpos_of_nonpos_of_neg_pi_le (by linarith) (by linarith))]; omega
    · have h2 : sin (line - (π + 1 / 2)) ≤ 0 :=
        sin_nonpos_of_nonpos_of_neg_pi_le (by linarith) (by linarith)
      rw [if_pos h2]; omega
  have hm : res.m = 4 := by
    obtain ⟨h0, h1⟩ := hline i hi
    have h4 := hge _ h0 h1
    have h5 := hmin 330 (by norm_num)
    have h6 : outside D ((330 : ℕ) * (π / (360 * ((1 : ℤ) : ℝ)))) = 4 := by
      rw [show ((330 : ℕ) : ℝ) * (π / (360 * ((1 : ℤ) : ℝ))) = 11 * π / 12 by push_cast; ring]
      rw [hD, outside_append, outside_replicate, outside_replicate, if_neg, if_pos]
      · exact sin_nonpos_of_nonpos_of_neg_pi_le (by linarith) (by linarith)
      · rw [not_le]
        exact sin_pos_of_pos_of_lt_pi (by linarith) (by linarith)
    rw [h6] at h5
    rw [hri] at h5 ⊢
    have : outside D (↑i * (π / (360 * ((1 : ℤ) : ℝ)))) = 4 := by
      have := Int.ofNat_le.1 h5
      omega
    rw [this]; rfl
  have hm' : res'.m = 0 := by
    have h5 := hmin' 180 (by norm_num)
    have h6 : outside D' ((180 : ℕ) * (π / (360 * ((1 : ℤ) : ℝ)))) = 0 := by
      rw [show ((180 : ℕ) : ℝ) * (π / (360 * ((1 : ℤ) : ℝ))) = π / 2 by push_cast; ring]
      rw [hD', outside_append, outside_replicate, outside_replicate, if_neg, if_neg]
      · rw [not_le]; exact sin_pos_of_pos_of_lt_pi (by linarith) (by linarith)
      · rw [not_le]; exact sin_pos_of_pos_of_lt_pi (by linarith) (by linarith)
    rw [h6] at h5
    rw [hri'] at h5 ⊢
    have := Int.ofNat_le.1 h5
    omega
  obtain ⟨m, h1, -, h2, -⟩ := C34_pvalue D 1 res hok
  obtain ⟨m', h1', -, h2', -⟩ := C34_pvalue D' 1 res' hok'
  have hm4 : m = 4 := by omega
  have hm0 : m' = 0 := by omega
  subst hm4 hm0
  refine ⟨res, res', hok, hok', ?_, ?_⟩
  · rw [(h2 (by omega)).1, hlen, show Nat.choose 10 4 = 210 by rfl]; norm_num
  · rw [(h2' (by omega)).1, hlen']; norm_num

/-- Perfectly balanced data get p = 0: equally many observations in two opposite directions are
reported as maximally significant. -/
theorem C34_balanced_gets_zero (k : ℕ) (hk : 0 < k) :
    ∃ res, omnibusTest (List.replicate k 0 ++ List.replicate k π) 1 = .ok res ∧ res.pval = 0 := by
  set D := List.replicate k (0 : ℝ) ++ List.replicate k π with hD
  have hne : D ≠ [] := by
    intro h
    have := congrArg List.length h
    simp [hD] at this
    omega
  obtain ⟨res, hok, ⟨i, hi, hri⟩, -⟩ := C34_m_is_min D 1 (by norm_num) hne
  obtain ⟨m, h1, -, -, h2⟩ := C34_pvalue D 1 res hok
  refine ⟨res, hok, (h2 ?_).1⟩
  have hlen : D.length = 2 * k := by simp [hD]; omega
  have : k ≤ outside D (i * (π / (360 * ((1 : ℤ) : ℝ)))) := by
    rw [hD, outside_append, outside_replicate, outside_replicate, sin_sub_pi, sub_zero]
    split_ifs <;> first | omega | (exfalso; linarith)
  rw [h1] at hri
  have := Int.ofNat_inj.1 hri
  omega

/-- `C` counts the observations that are not strictly within a quarter turn of the hypothesised
direction, i.e. whose deviation has a non-positive cosine. -/
theorem C35_count (angle : ℝ) (alpha : List ℝ) (hne : alpha ≠ []) :
    ∃ p, batscheletTest angle alpha
      = .ok (alpha.countP fun a => decide (cos (a - angle) ≤ 0), p) := by
  unfold batscheletTest
  rw [if_neg (by simpa using hne)]
  simp only
  have h := List.length_eq_countP_add_countP (fun a => decide (cos (a - angle) ≤ 0)) (l := alpha)
  have h2 : (alpha.countP fun a => decide (0 < angmod2pi ((angle + 0.5 * π) - a)) &&
      decide (angmod2pi ((angle + 0.5 * π) - a) < π)) =
      alpha.countP fun a => decide ¬ (decide (cos (a - angle) ≤ 0) = true) := by
    congr 1
    funext a
    have := half_iff ((angle + 0.5 * π) - a)
    rw [show (angle + 0.5 * π) - a = π / 2 - (a - angle) by ring, sin_pi_div_two_sub,
      ← not_le (a := cos (a - angle))] at this
    rw [← Bool.decide_and, show (angle + 0.5 * π) - a = π / 2 - (a - angle) by ring]
    simp only [decide_eq_true_eq, this]
  rw [h2]
  refine ⟨binomTest (alpha.countP fun a => decide (cos (a - angle) ≤ 0)) alpha.length, ?_⟩
  rw [show alpha.length - (alpha.countP fun a => decide ¬ (decide (cos (a - angle) ≤ 0) = true))
    = alpha.countP fun a => decide (cos (a - angle) ≤ 0) by omega]

private lemma batschelet_eq (angle : ℝ) (alpha : List ℝ) (hne : alpha ≠ []) :
    batscheletTest angle alpha = .ok (alpha.countP fun a => decide (cos (a - angle) ≤ 0),
      binomTest (alpha.countP fun a => decide (cos (a - angle) ≤ 0)) alpha.length) := by
  obtain ⟨p, h⟩ := C35_count angle alpha hne
  rw [h]
  unfold batscheletTest at h
  rw [if_neg (by simpa using hne)] at h
  simp only [Except.ok.injEq, Prod.mk.injEq] at h
  rw [← h.2, h.1]

/-- The p value is the two-sided exact binomial one, for `n` the number of observations: the probability, under a fair coin, of the
outcomes that are not more likely than `C`. -/
theorem C35_pvalue (angle p : ℝ) (C : ℕ) (alpha : List ℝ)
    (h : batscheletTest angle alpha = .ok (C, p)) :
    p = (∑ j ∈ (Finset.range (alpha.length + 1)).filter
      (fun j => alpha.length.choose j ≤ alpha.length.choose C), (alpha.length.choose j : ℝ))
        / 2 ^ alpha.length ∧ 0 < p ∧ p ≤ 1 := by
  have hne : alpha ≠ [] := by rintro rfl; simp [batscheletTest] at h
  rw [batschelet_eq angle alpha hne] at h
  simp only [Except.ok.injEq, Prod.mk.injEq] at h
  obtain ⟨hC, hp⟩ := h
  rw [hC] at hp
  have hCn : C ≤ alpha.length := by rw [← hC]; exact List.countP_le_length
  set n := alpha.length
  have h2 : (0 : ℝ) < 2 ^ n := by positivity
  refine ⟨hp.symm, ?_, ?_⟩
  · rw [← hp, binomTest]
    apply div_pos _ h2
    apply Finset.sum_pos'
    · intro j _; positivity
    · refine ⟨C, by simp; omega, ?_⟩
      exact_mod_cast Nat.choose_pos hCn
  · rw [← hp, binomTest, div_le_one h2]
    have := Nat.sum_range_choose n
    have h3 : (∑ j ∈ Finset.range (n + 1), (n.choose j : ℝ)) = 2 ^ n := by exact_mod_cast this
    rw [← h3]
    exact Finset.sum_le_sum_of_subset_of_nonneg (Finset.filter_subset _ _) (fun _ _ _ => by positivity)

/-- Rotating data and hypothesised direction together changes nothing, nor do whole turns of single
observations. -/
theorem C35_rotate (angle t : ℝ) (alpha beta : List ℝ)
    (h : List.Forall₂ (fun a b => SameDir b (a + t)) alpha beta) :
    batscheletTest (angle + t) beta = batscheletTest angle alpha := by
  by_cases hne : alpha = []
  · subst hne; cases h; rfl
  have hne' : beta ≠ [] := by rintro rfl; cases h; exact hne rfl
  have hc : (beta.countP fun a => decide (cos (a - (angle + t)) ≤ 0))
      = alpha.countP fun a => decide (cos (a - angle) ≤ 0) := by
    clear hne hne'
    induction h with
    | nil => rfl
    | cons hab _ ih =>
      rw [List.countP_cons, List.countP_cons, ih]
      rw [cos_eq_of_sameDir (hab.sub (CongMod.refl _ (angle + t))),
        add_sub_add_right_eq_sub]
  rw [batschelet_eq _ _ hne, batschelet_eq _ _ hne', hc, h.length_eq]

/-- Opposite hypothesised directions: the two counts add up to at least `n`, and to exactly `n` when
no observation is at a right angle to the hypothesised direction. -/
theorem C35_opposite (angle p p' : ℝ) (C C' : ℕ) (alpha : List ℝ)
    (h : batscheletTest angle alpha = .ok (C, p))
    (h' : batscheletTest (angle + π) alpha = .ok (C', p')) :
    alpha.length ≤ C + C' ∧ (C + C' = alpha.length ↔ ∀ a ∈ alpha, cos (a - angle) ≠ 0) := by
  have hne : alpha ≠ [] := by rintro rfl; simp [batscheletTest] at h
  rw [batschelet_eq _ _ hne] at h h'
  simp only [Except.ok.injEq, Prod.mk.injEq] at h h'
  rw [← h.1, ← h'.1]
  clear h h' hne
  have e : ∀ a, cos (a - (angle + π)) = - cos (a - angle) := by
    intro a; rw [← sub_sub, cos_sub_pi]
  simp only [e, neg_nonpos]
  induction alpha with
  | nil => simp
  | cons a l ih =>
    simp only [List.countP_cons, List.length_cons, List.mem_cons, forall_eq_or_imp, decide_eq_true_eq]
    rcases lt_trichotomy (cos (a - angle)) 0 with hc | hc | hc
    · rw [if_pos hc.le, if_neg (not_le.2 hc)]
      refine ⟨by omega, ?_⟩
      simp only [hc.ne, not_false_eq_true, true_and, ne_eq, ← ih.2]
      omega
    · rw [if_pos hc.le, if_pos hc.ge]
      refine ⟨by omega, ?_⟩
      simp only [hc, not_true_eq_false, false_and, ne_eq, iff_false]
      omega
    · rw [if_neg (not_le.2 hc), if_pos hc.le]
      refine ⟨by omega, ?_⟩
      simp only [hc.ne', not_false_eq_true, true_and, ne_eq, ← ih.2]
      omega

/-- Three observations against direction 0: only the one at `π` is not within a quarter turn. -/
example : ∃ p, batscheletTest 0 [0, 1, π] = .ok (1, p) := by
  obtain ⟨p, h⟩ := C35_count 0 [0, 1, π] (by simp)
  refine ⟨p, ?_⟩
  rw [h]
  have h1 : 0 < cos 1 := cos_one_pos
  simp [List.countP_cons, not_le.2 h1]

end Verif.Props
