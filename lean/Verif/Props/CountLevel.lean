import Verif.Props.Binomial
import Verif.Props.Omnibus
import Verif.Lemmas.Gaps

/-!
# C137: level of the tests that count observations
-/

set_option autoImplicit false

namespace Verif.Props

open Verif Verif.Spec Real MeasureTheory

/-- The law of `n` independent observations of law `μ`. -/
noncomputable def iid (μ : Measure ℝ) (n : ℕ) : Measure (Fin n → ℝ) := Measure.pi fun _ => μ

private lemma countP_fin {n : ℕ} (x : Fin n → ℝ) (p : ℝ → Bool) :
    (List.ofFn x).countP p = (Finset.univ.filter fun i => p (x i) = true).card := by
  induction n with
  | zero => simp
  | succ n ih =>
    rw [List.ofFn_succ, List.countP_cons, ih, Finset.card_filter, Finset.card_filter, Fin.sum_univ_succ, add_comm]

private lemma card_filter_card {ι : Type*} [DecidableEq ι] (U : Finset ι) (P : ℕ → Prop) [DecidablePred P] :
    ((U.powerset.filter fun S => P S.card).card : ℝ)
      = ∑ j ∈ (Finset.range (U.card + 1)).filter P, (U.card.choose j : ℝ) := by
  rw [Finset.card_filter, Nat.cast_sum]
  refine Eq.trans (Finset.sum_powerset_apply_card (fun j => ((if P j then 1 else 0 : ℕ) : ℝ)) (x := U)) ?_
  rw [Finset.sum_filter]
  refine Finset.sum_congr rfl fun j _ => ?_
  split_ifs <;> simp

/-- Number of subsets whose two-sided tail is small. -/
private lemma tail_count (m : ℕ) (α : ℝ) :
    ∑ j ∈ (Finset.range (m + 1)).filter (fun j => min (2 * fairTail (min j (m - j)) m) 1 ≤ α), (m.choose j : ℝ)
      ≤ max α 0 * 2 ^ m := by
  have h2 : (0 : ℝ) < 2 ^ m := by positivity
  rcases le_or_gt 1 α with h1 | h1
  · have h3 : (∑ j ∈ Finset.range (m + 1), (m.choose j : ℝ)) = 2 ^ m := by exact_mod_cast Nat.sum_range_choose m
    calc _ ≤ ∑ j ∈ Finset.range (m + 1), (m.choose j : ℝ) :=
          Finset.sum_le_sum_of_subset_of_nonneg (Finset.filter_subset _ _) (fun _ _ _ => by positivity)
      _ = 1 * 2 ^ m := by rw [h3, one_mul]
      _ ≤ _ := by gcongr; exact h1.trans (le_max_left _ _)
  obtain ⟨J, hJ⟩ : ∃ J, (Finset.range (m + 1)).filter
    (fun j => min (2 * fairTail (min j (m - j)) m) 1 ≤ α) = J := ⟨_, rfl⟩
  rw [hJ]
  rcases J.eq_empty_or_nonempty with h0 | h0
  · rw [h0, Finset.sum_empty]; positivity
  obtain ⟨s, hs, hmax⟩ := J.exists_max_image (fun j => min j (m - j)) h0
  have hsα : 2 * fairTail (min s (m - s)) m ≤ α := by
    rw [← hJ] at hs
    rcases min_le_iff.1 (Finset.mem_filter.1 hs).2 with h | h
    · exact h
    · linarith
  obtain ⟨k, hk⟩ : ∃ k, min s (m - s) = k := ⟨_, rfl⟩
  have hkm : k ≤ m := by
    have := Finset.mem_range.1 (Finset.mem_filter.1 (hJ ▸ hs)).1
    omega
  rw [hk] at hsα
  have hsub : J ⊆ Finset.range (k + 1) ∪ (Finset.range (k + 1)).image (fun j => m - j) := by
    intro j hj
    have h3 := hmax j hj
    have h4 := Finset.mem_range.1 (Finset.mem_filter.1 (hJ ▸ hj)).1
    rw [hk] at h3
    rcases min_le_iff.1 h3 with h | h
    · exact Finset.mem_union_left _ (Finset.mem_range.2 (by omega))
    · exact Finset.mem_union_right _ (Finset.mem_image.2 ⟨m - j, Finset.mem_range.2 (by omega), by omega⟩)
  have himg : ∑ j ∈ (Finset.range (k + 1)).image (fun j => m - j), (m.choose j : ℝ)
      = ∑ j ∈ Finset.range (k + 1), (m.choose j : ℝ) := by
    rw [Finset.sum_image]
    · refine Finset.sum_congr rfl fun j hj => ?_
      rw [Nat.choose_symm]
      have := Finset.mem_range.1 hj; omega
    · intro a ha b hb hab
      have ha' := Finset.mem_range.1 ha
      have hb' := Finset.mem_range.1 hb
      simp only at hab
      omega
  unfold fairTail at hsα
  rw [← mul_div_assoc, div_le_iff₀ h2] at hsα
  calc _ ≤ ∑ j ∈ Finset.range (k + 1) ∪ (Finset.range (k + 1)).image (fun j => m - j), (m.choose j : ℝ) :=
        Finset.sum_le_sum_of_subset_of_nonneg hsub (fun _ _ _ => by positivity)
    _ ≤ ∑ j ∈ Finset.range (k + 1), (m.choose j : ℝ)
        + ∑ j ∈ (Finset.range (k + 1)).image (fun j => m - j), (m.choose j : ℝ) := by
        rw [← Finset.sum_union_inter]
        have : 0 ≤ ∑ j ∈ Finset.range (k + 1) ∩ (Finset.range (k + 1)).image (fun j => m - j),
          (m.choose j : ℝ) := Finset.sum_nonneg fun _ _ => by positivity
        linarith
    _ ≤ α * 2 ^ m := by rw [himg]; linarith
    _ ≤ _ := by gcongr; exact le_max_left _ _

private lemma exact_count (m : ℕ) (α : ℝ) :
    ∑ j ∈ (Finset.range (m + 1)).filter (fun j => binomTest j m ≤ α), (m.choose j : ℝ) ≤ max α 0 * 2 ^ m := by
  have h2 : (0 : ℝ) < 2 ^ m := by positivity
  obtain ⟨J, hJ⟩ : ∃ J, (Finset.range (m + 1)).filter (fun j => binomTest j m ≤ α) = J := ⟨_, rfl⟩
  rw [hJ]
  rcases J.eq_empty_or_nonempty with h0 | h0
  · rw [h0, Finset.sum_empty]; positivity
  obtain ⟨s, hs, hmax⟩ := J.exists_max_image (fun j => m.choose j) h0
  have hsα := (Finset.mem_filter.1 (hJ ▸ hs)).2
  unfold binomTest at hsα
  rw [div_le_iff₀ h2] at hsα
  calc _ ≤ ∑ j ∈ (Finset.range (m + 1)).filter (fun j => m.choose j ≤ m.choose s), (m.choose j : ℝ) := by
        refine Finset.sum_le_sum_of_subset_of_nonneg (fun j hj => ?_) (fun _ _ _ => by positivity)
        exact Finset.mem_filter.2 ⟨(Finset.mem_filter.1 (hJ ▸ hj)).1, hmax j hj⟩
    _ ≤ α * 2 ^ m := hsα
    _ ≤ _ := by gcongr; exact le_max_left _ _

/-- Probability of a given pattern of signs. -/
private lemma pattern (μ : Measure ℝ) [IsProbabilityMeasure μ] (n : ℕ) (A B Z : Set ℝ) (U S : Finset (Fin n))
    (hAB : μ A = μ B) :
    iid μ n (Set.univ.pi fun i => if i ∈ U then (if i ∈ S then A else B) else Z)
      = μ A ^ U.card * μ Z ^ (n - U.card) := by
  unfold iid
  rw [Measure.pi_pi]
  have : ∀ i, μ (if i ∈ U then (if i ∈ S then A else B) else Z) = if i ∈ U then μ A else μ Z := by
    intro i; split_ifs <;> first | rfl | exact hAB.symm
  simp only [this]
  rw [Finset.prod_ite, Finset.prod_const, Finset.prod_const, Finset.filter_mem_eq_inter, Finset.univ_inter,
    Finset.filter_not, Finset.filter_mem_eq_inter, Finset.univ_inter, ← Finset.compl_eq_univ_sdiff,
    Finset.card_compl, Fintype.card_fin]

open Classical in
/-- A p value that is a function of the numbers of observations on either side keeps the level if it does for
fair coins, whatever the number of observations that are on neither side. -/
private lemma level_of_count (μ : Measure ℝ) [IsProbabilityMeasure μ] (n : ℕ) (A B : Set ℝ) (hA : MeasurableSet A)
    (hB : MeasurableSet B) (hd : Disjoint A B) (hAB : μ A = μ B) (α : ℝ) (E : Set (Fin n → ℝ)) (P : ℕ → ℕ → Prop)
    (hE : ∀ x ∈ E, P (Finset.univ.filter fun i => x i ∈ A ∪ B).card (Finset.univ.filter fun i => x i ∈ A).card)
    (hP : ∀ m, ∑ j ∈ (Finset.range (m + 1)).filter (fun j => P m j), (m.choose j : ℝ) ≤ max α 0 * 2 ^ m) :
    iid μ n E ≤ ENNReal.ofReal α := by
  have hcover : E ⊆ ⋃ U ∈ (Finset.univ : Finset (Fin n)).powerset, ⋃ S ∈ U.powerset.filter (fun S => P U.card S.card),
      Set.univ.pi fun i => if i ∈ U then (if i ∈ S then A else B) else (A ∪ B)ᶜ := by
    intro x hx
    have h := hE x hx
    simp only [Set.mem_iUnion]
    refine ⟨Finset.univ.filter fun i => x i ∈ A ∪ B, by simp, Finset.univ.filter fun i => x i ∈ A, ?_, ?_⟩
    · rw [Finset.mem_filter, Finset.mem_powerset]
      refine ⟨?_, h⟩
      intro i hi
      simp only [Finset.mem_filter, Finset.mem_univ, true_and] at hi ⊢
      exact Or.inl hi
    · intro i _
      simp only [Finset.mem_filter, Finset.mem_univ, true_and]
      by_cases h1 : x i ∈ A
      · simp [h1]
      · by_cases h2 : x i ∈ B
        · simp [h1, h2]
        · simp [h1, h2]
  have hz : μ (A ∪ B)ᶜ + 2 * μ A = 1 := by
    rw [two_mul]
    nth_rw 2 [hAB]
    rw [← measure_union hd hB, add_comm]
    exact prob_add_prob_compl (hA.union hB)
  calc iid μ n E ≤ _ := measure_mono hcover
    _ ≤ ∑ U ∈ (Finset.univ : Finset (Fin n)).powerset, ∑ S ∈ U.powerset.filter (fun S => P U.card S.card),
        iid μ n (Set.univ.pi fun i => if i ∈ U then (if i ∈ S then A else B) else (A ∪ B)ᶜ) :=
        (measure_biUnion_finset_le _ _).trans (Finset.sum_le_sum fun U _ => measure_biUnion_finset_le _ _)
    _ = ∑ U ∈ (Finset.univ : Finset (Fin n)).powerset, ((U.powerset.filter fun S => P U.card S.card).card : ENNReal)
        * (μ A ^ U.card * μ (A ∪ B)ᶜ ^ (n - U.card)) := by
        refine Finset.sum_congr rfl fun U _ => ?_
        rw [← nsmul_eq_mul, ← Finset.sum_const]
        refine Finset.sum_congr rfl fun S _ => ?_
        exact pattern μ n A B _ U S hAB
    _ ≤ ∑ U ∈ (Finset.univ : Finset (Fin n)).powerset, ENNReal.ofReal α *
        ((2 * μ A) ^ U.card * μ (A ∪ B)ᶜ ^ (n - U.card)) := by
        refine Finset.sum_le_sum fun U _ => ?_
        rw [mul_pow, ← mul_assoc, ← mul_assoc, ← mul_assoc]
        gcongr
        have h := hP U.card
        rw [← card_filter_card] at h
        have h' := ENNReal.ofReal_le_ofReal h
        rw [ENNReal.ofReal_natCast, ENNReal.ofReal_mul (le_max_right _ _), ENNReal.ofReal_pow (by norm_num)] at h'
        have hm : ENNReal.ofReal (max α 0) = ENNReal.ofReal α := by
          rcases le_total α 0 with h0 | h0
          · rw [max_eq_right h0, ENNReal.ofReal_zero, ENNReal.ofReal_of_nonpos h0]
          · rw [max_eq_left h0]
        rw [hm] at h'
        simpa using h'
    _ = ENNReal.ofReal α * (2 * μ A + μ (A ∪ B)ᶜ) ^ n := by
        rw [← Finset.mul_sum]
        congr 1
        have := Finset.sum_pow_mul_eq_add_pow (2 * μ A) (μ (A ∪ B)ᶜ) (Finset.univ : Finset (Fin n))
        rw [Finset.card_univ, Fintype.card_fin] at this
        exact this
    _ = ENNReal.ofReal α := by rw [add_comm, hz, one_pow, mul_one]

/-- C137. Binomial test for the median direction: if an observation is equally likely before and after (or opposite)
the hypothesised median, the p value is at most `α` with probability at most `α`, for every number of observations,
also if observations in the direction of the median have positive probability. -/
theorem C137_binomial_level (μ : Measure ℝ) [IsProbabilityMeasure μ] (md : ℝ)
    (hμ : μ {a | sin (a - md) < 0} = μ {a | 0 < sin (a - md) ∨ cos (a - md) = -1}) (n : ℕ) (α : ℝ) :
    iid μ n {x | ∃ res, binomialTest (List.ofFn x) md = .ok res ∧ res.pval ≤ α} ≤ ENNReal.ofReal α := by
  classical
  refine level_of_count μ n {a | sin (a - md) < 0} {a | 0 < sin (a - md) ∨ cos (a - md) = -1} ?_ ?_ ?_ hμ α _
    (fun m j => min (2 * fairTail (min j (m - j)) m) 1 ≤ α) ?_ ?_
  · exact measurableSet_lt (by fun_prop) measurable_const
  · have h1 : MeasurableSet {a : ℝ | 0 < sin (a - md)} := measurableSet_lt measurable_const (by fun_prop)
    have h2 : MeasurableSet {a : ℝ | cos (a - md) = -1} := measurableSet_eq_fun (by fun_prop) measurable_const
    exact h1.union h2
  · rw [Set.disjoint_left]
    rintro a h1 (h2 | h2)
    · exact absurd h1 (not_lt.2 (le_of_lt h2))
    · have h3 : sin (a - md) < 0 := h1
      have := sin_sq_add_cos_sq (a - md)
      rw [h2] at this
      nlinarith
  · rintro x ⟨res, h, hp⟩
    have h1 : (List.ofFn x).countP (fun a => decide (centerDist a md < 0))
        = (Finset.univ.filter fun i => x i ∈ {a | sin (a - md) < 0}).card := by
      rw [countP_fin]
      simp only [decide_eq_true_eq, centerDist_neg_iff, Set.mem_ofPred_eq]
    have h2 : (List.ofFn x).countP (fun a => decide (centerDist a md < 0))
        + (List.ofFn x).countP (fun a => decide (0 < centerDist a md))
        = (Finset.univ.filter fun i => x i ∈ {a | sin (a - md) < 0} ∪ {a | 0 < sin (a - md) ∨ cos (a - md) = -1}).card := by
      rw [countP_fin, countP_fin, ← Finset.card_union_of_disjoint, ← Finset.filter_or]
      · simp only [decide_eq_true_eq, centerDist_neg_iff, centerDist_pos_iff, Set.mem_union, Set.mem_ofPred_eq]
      · rw [Finset.disjoint_filter]
        intro i _ h1 h2
        simp only [decide_eq_true_eq] at h1 h2
        exact absurd h1 (not_lt.2 h2.le)
    unfold binomialTest at h
    split_ifs at h with h0
    simp only at h
    have h2' := h2
    have h1' := h1
    obtain ⟨N, hN⟩ : ∃ N, (Finset.univ.filter fun i => x i ∈ {a | sin (a - md) < 0} ∪
      {a | 0 < sin (a - md) ∨ cos (a - md) = -1}).card = N := ⟨_, rfl⟩
    rw [hN] at h2'
    convert_to min (2 * fairTail (min (Finset.univ.filter fun i => x i ∈ {a | sin (a - md) < 0}).card
      (N - (Finset.univ.filter fun i => x i ∈ {a | sin (a - md) < 0}).card)) N) 1 ≤ α
    · rw [← hN]; congr!
    rw [← h2', ← h1']
    split_ifs at h with h3
    · cases h
      refine le_trans (min_le_right _ _) hp
    · cases h
      rw [Nat.add_sub_cancel_left]
      exact hp
  · intro m
    exact tail_count m α

/-- C137. Batschelet's test: if half of the mass lies within a quarter turn of the hypothesised direction (as under
uniformity), the p value is at most `α` with probability at most `α`. -/
theorem C137_batschelet_level (μ : Measure ℝ) [IsProbabilityMeasure μ] (angle : ℝ)
    (hμ : μ {a | 0 < cos (a - angle)} = 1 / 2) (n : ℕ) (α : ℝ) :
    iid μ n {x | ∃ (C : ℕ) (p : ℝ), batscheletTest angle (List.ofFn x) = .ok (C, p) ∧ p ≤ α} ≤ ENNReal.ofReal α := by
  classical
  have hm : MeasurableSet {a : ℝ | cos (a - angle) ≤ 0} := measurableSet_le (by fun_prop) measurable_const
  have hc : {a : ℝ | 0 < cos (a - angle)} = {a | cos (a - angle) ≤ 0}ᶜ := by
    ext a; simp
  refine level_of_count μ n {a | cos (a - angle) ≤ 0} {a | 0 < cos (a - angle)} hm ?_ ?_ ?_ α _
    (fun m j => binomTest j m ≤ α) ?_ ?_
  · exact measurableSet_lt measurable_const (by fun_prop)
  · rw [hc]; exact disjoint_compl_right
  · rw [hc, prob_compl_eq_one_sub hm] at hμ
    have hle : μ {a | cos (a - angle) ≤ 0} ≤ 1 := prob_le_one
    rw [hc, prob_compl_eq_one_sub hm, hμ]
    have : μ {a | cos (a - angle) ≤ 0} = 1 - (1 - μ {a | cos (a - angle) ≤ 0}) :=
      (ENNReal.sub_sub_cancel ENNReal.one_ne_top hle).symm
    rw [this, hμ, one_div, ENNReal.one_sub_inv_two]
  · rintro x ⟨C, p, h, hp⟩
    have hne : List.ofFn x ≠ [] := by intro h0; rw [h0] at h; simp [batscheletTest] at h
    obtain ⟨p', h'⟩ := C35_count angle (List.ofFn x) hne
    have h'' := h
    rw [h'] at h''
    simp only [Except.ok.injEq, Prod.mk.injEq] at h''
    have hpv := (C35_pvalue angle p C _ h).1
    rw [List.length_ofFn] at hpv
    have hall : (Finset.univ.filter fun i => x i ∈ {a | cos (a - angle) ≤ 0} ∪ {a | 0 < cos (a - angle)}).card = n := by
      rw [Finset.filter_true_of_mem, Finset.card_univ, Fintype.card_fin]
      intro i _
      exact le_or_gt (cos (x i - angle)) 0
    rw [hall]
    have hC : (Finset.univ.filter fun i => x i ∈ {a : ℝ | cos (a - angle) ≤ 0}).card = C := by
      rw [← h''.1, countP_fin]
      simp only [decide_eq_true_eq, Set.mem_ofPred_eq]
    rw [hC]
    unfold binomTest
    rw [← hpv]
    exact hp
  · intro m
    exact exact_count m α

/-- C137. Batschelet's test is announced against concentration about the given direction. It rejects in the same way
for concentration about the opposite direction: without observations at a right angle to it, the p values for a
direction and for its opposite are the same. -/
theorem C137_batschelet_blind (angle : ℝ) (alpha : List ℝ) (h : ∀ a ∈ alpha, cos (a - angle) ≠ 0) (C C' : ℕ)
    (p p' : ℝ) (h1 : batscheletTest angle alpha = .ok (C, p)) (h2 : batscheletTest (angle + π) alpha = .ok (C', p')) :
    p = p' := by
  have hne : alpha ≠ [] := by rintro rfl; simp [batscheletTest] at h1
  rw [(C35_pvalue _ _ _ _ h1).1, (C35_pvalue _ _ _ _ h2).1]
  obtain ⟨q, hq⟩ := C35_count angle alpha hne
  obtain ⟨q', hq'⟩ := C35_count (angle + π) alpha hne
  rw [hq] at h1; rw [hq'] at h2
  simp only [Except.ok.injEq, Prod.mk.injEq] at h1 h2
  have hl := List.length_eq_countP_add_countP (fun a => decide (cos (a - angle) ≤ 0)) (l := alpha)
  have he : alpha.countP (fun a => decide (cos (a - (angle + π)) ≤ 0))
      = alpha.countP fun a => decide ¬ (decide (cos (a - angle) ≤ 0) = true) := by
    apply List.countP_congr
    intro a ha
    have : a - (angle + π) = a - angle - π := by ring
    have h0 := h a ha
    simp only [this, cos_sub_pi, decide_eq_true_eq, not_le]
    constructor
    · intro h3; exact lt_of_le_of_ne (by linarith) (Ne.symm h0)
    · intro h3; linarith
  have hcc : C' = alpha.length - C := by rw [← h1.1, ← h2.1, he]; omega
  have hCl : C ≤ alpha.length := by rw [← h1.1]; exact List.countP_le_length
  rw [hcc, Nat.choose_symm hCl]

private lemma quarter (a : ℝ) (h0 : 0 ≤ a) (h1 : a + π / 2 ≤ 2 * π) : uniformLaw (Set.Ioo a (a + π / 2)) = 1 / 4 := by
  unfold uniformLaw
  rw [Measure.smul_apply, Measure.restrict_apply measurableSet_Ioo, Set.inter_eq_left.2, Real.volume_Ioo, smul_eq_mul,
    add_sub_cancel_left, ← ENNReal.ofReal_inv_of_pos (by positivity), ← ENNReal.ofReal_mul (by positivity)]
  · have : (2 * π)⁻¹ * (π / 2) = 1 / 4 := by field_simp; norm_num
    rw [this, ENNReal.ofReal_div_of_pos (by norm_num)]
    norm_num
  · intro t ht
    exact ⟨by linarith [ht.1], by linarith [ht.2]⟩

/-- C137. The Hodges-Ajne test does not keep any level: of `2k` uniform directions, the p value is zero with
probability at least `C(2k,k)/4^(2k)` (for two directions at least 1/8), however many lines are scanned. -/
theorem C137_omnibus_fails (k : ℕ) (hk : 0 < k) (scale : ℤ) (hs : 0 < scale) :
    ((2 * k).choose k : ENNReal) * (1 / 4) ^ (2 * k)
      ≤ uniformSample (2 * k) {x | ∃ res, omnibusTest (List.ofFn x) scale = .ok res ∧ res.pval = 0} := by
  classical
  obtain ⟨A, hA⟩ : ∃ A, Set.Ioo (π / 2) (π / 2 + π / 2) = A := ⟨_, rfl⟩
  obtain ⟨B, hB⟩ : ∃ B, Set.Ioo π (π + π / 2) = B := ⟨_, rfl⟩
  have hpi := pi_pos
  have hμA : uniformLaw A = 1 / 4 := by rw [← hA]; exact quarter _ (by positivity) (by linarith)
  have hμB : uniformLaw B = 1 / 4 := by rw [← hB]; exact quarter _ (by positivity) (by linarith)
  have hmA : MeasurableSet A := by rw [← hA]; exact measurableSet_Ioo
  have hmB : MeasurableSet B := by rw [← hB]; exact measurableSet_Ioo
  have hdis : ∀ a, a ∈ A → a ∈ B → False := by
    intro a h1 h2
    rw [← hA] at h1; rw [← hB] at h2
    have := h1.2; have := h2.1
    linarith
  obtain ⟨F, hF⟩ : ∃ F : Finset (Fin (2 * k)) → Set (Fin (2 * k) → ℝ),
      F = fun S => Set.univ.pi fun i => if i ∈ S then A else B := ⟨_, rfl⟩
  have hmeas : ∀ S, MeasurableSet (F S) := by
    intro S
    rw [hF]
    refine MeasurableSet.univ_pi fun i => ?_
    split_ifs
    exacts [hmA, hmB]
  have hdisj : Set.PairwiseDisjoint (↑((Finset.univ : Finset (Fin (2 * k))).powersetCard k)) F := by
    intro S _ T _ hST
    rw [Function.onFun, Set.disjoint_left]
    intro x h1 h2
    apply hST
    rw [hF] at h1 h2
    ext i
    have e1 := h1 i trivial
    have e2 := h2 i trivial
    simp only at e1 e2
    split_ifs at e1 e2 with c1 c2 c2
    · simp [c1, c2]
    · exact (hdis _ e1 e2).elim
    · exact (hdis _ e2 e1).elim
    · simp [c1, c2]
  have hval : ∀ S, uniformSample (2 * k) (F S) = (1 / 4) ^ (2 * k) := by
    intro S
    rw [hF]
    unfold uniformSample
    rw [Measure.pi_pi]
    have : ∀ i, uniformLaw (if i ∈ S then A else B) = 1 / 4 := by
      intro i; split_ifs <;> assumption
    simp only [this]
    rw [Finset.prod_const, Finset.card_univ, Fintype.card_fin]
  have hsub : ⋃ S ∈ (Finset.univ : Finset (Fin (2 * k))).powersetCard k, F S
      ⊆ {x | ∃ res, omnibusTest (List.ofFn x) scale = .ok res ∧ res.pval = 0} := by
    intro x hx
    simp only [Set.mem_iUnion] at hx
    obtain ⟨S, hS, hx⟩ := hx
    rw [hF] at hx
    have hSc := (Finset.mem_powersetCard.1 hS).2
    have hne : List.ofFn x ≠ [] := by
      intro h0
      have := congrArg List.length h0
      rw [List.length_ofFn] at this
      simp at this
      omega
    obtain ⟨res, hres, ⟨i, hi, hm⟩, -⟩ := C34_m_is_min (List.ofFn x) scale hs hne
    refine ⟨res, hres, ?_⟩
    obtain ⟨m, hm', -, -, h0⟩ := C34_pvalue _ scale res hres
    refine (h0 ?_).1
    rw [List.length_ofFn]
    rw [hm'] at hm
    have hm2 : m = outside (List.ofFn x) (i * (π / (360 * scale))) := by exact_mod_cast hm
    obtain ⟨L, hL⟩ : ∃ L : ℝ, (i : ℝ) * (π / (360 * scale)) = L := ⟨_, rfl⟩
    have hsc : (0 : ℝ) < 360 * scale := by
      have : (0 : ℝ) < scale := by exact_mod_cast hs
      positivity
    have hL0 : 0 ≤ L := by rw [← hL]; positivity
    have hL1 : L < π := by
      rw [← hL, ← mul_div_assoc, div_lt_iff₀ hsc, mul_comm]
      have : (i : ℝ) < 360 * scale := by exact_mod_cast hi
      gcongr
    rw [hL] at hm2
    unfold outside at hm2
    rw [countP_fin] at hm2
    simp only [decide_eq_true_eq] at hm2
    have hcard : k ≤ (Finset.univ.filter fun i => sin (L - x i) ≤ 0).card := by
      rcases le_total L (π / 2) with h | h
      · refine hSc.symm.le.trans ?_
        refine Finset.card_le_card fun j hj => ?_
        have := hx j trivial
        simp only [hj, if_true] at this
        rw [← hA] at this
        simp only [Finset.mem_filter, Finset.mem_univ, true_and]
        exact sin_nonpos_of_nonpos_of_neg_pi_le (by linarith [this.1]) (by linarith [this.2])
      · have hc : Sᶜ.card = k := by rw [Finset.card_compl, hSc, Fintype.card_fin]; omega
        refine hc.symm.le.trans ?_
        refine Finset.card_le_card fun j hj => ?_
        have := hx j trivial
        rw [Finset.mem_compl] at hj
        simp only [hj, if_false] at this
        rw [← hB] at this
        simp only [Finset.mem_filter, Finset.mem_univ, true_and]
        exact sin_nonpos_of_nonpos_of_neg_pi_le (by linarith [this.1]) (by linarith [this.2])
    omega
  calc ((2 * k).choose k : ENNReal) * (1 / 4) ^ (2 * k)
      = ∑ S ∈ (Finset.univ : Finset (Fin (2 * k))).powersetCard k, uniformSample (2 * k) (F S) := by
        rw [Finset.sum_congr rfl fun S _ => hval S, Finset.sum_const, Finset.card_powersetCard, Finset.card_univ,
          Fintype.card_fin, nsmul_eq_mul]
    _ = uniformSample (2 * k) (⋃ S ∈ (Finset.univ : Finset (Fin (2 * k))).powersetCard k, F S) :=
        (measure_biUnion_finset hdisj fun S _ => hmeas S).symm
    _ ≤ _ := measure_mono hsub

/-- A witness: two uniform directions, p value zero with probability at least 1/8. -/
example : (1 : ENNReal) / 8 ≤ uniformSample 2 {x | ∃ res, omnibusTest (List.ofFn x) 1 = .ok res ∧ res.pval = 0} := by
  refine le_trans (le_of_eq ?_) (C137_omnibus_fails 1 one_pos 1 one_pos)
  have h4 : (1 : ENNReal) / 4 = ENNReal.ofReal (1 / 4) := by
    rw [ENNReal.ofReal_div_of_pos (by norm_num)]; norm_num
  have h8 : (1 : ENNReal) / 8 = ENNReal.ofReal (1 / 8) := by
    rw [ENNReal.ofReal_div_of_pos (by norm_num)]; norm_num
  rw [h4, h8, ← ENNReal.ofReal_pow (by norm_num), ← ENNReal.ofReal_natCast, ← ENNReal.ofReal_mul (by positivity)]
  congr 1
  norm_num [Nat.choose]

/-- Uniform directions satisfy the hypothesis of `C137_binomial_level` for the median 0. -/
example : uniformLaw {a | sin (a - 0) < 0} = uniformLaw {a | 0 < sin (a - 0) ∨ cos (a - 0) = -1} := by
  have hpi := pi_pos
  have h1 : {a : ℝ | sin (a - 0) < 0} ∩ Set.Ico 0 (2 * π) = Set.Ioo π (2 * π) := by
    ext a
    simp only [sub_zero, Set.mem_inter_iff, Set.mem_ofPred_eq, Set.mem_Ico, Set.mem_Ioo]
    constructor
    · rintro ⟨h, h0, h2⟩
      refine ⟨?_, h2⟩
      by_contra hc
      exact absurd (sin_nonneg_of_nonneg_of_le_pi h0 (not_lt.1 hc)) (not_le.2 h)
    · rintro ⟨h, h2⟩
      refine ⟨?_, by linarith, h2⟩
      have := sin_pos_of_pos_of_lt_pi (x := a - π) (by linarith) (by linarith)
      rw [sin_sub_pi] at this
      linarith
  have h2 : {a : ℝ | 0 < sin (a - 0) ∨ cos (a - 0) = -1} ∩ Set.Ico 0 (2 * π) = Set.Ioc 0 π := by
    ext a
    simp only [sub_zero, Set.mem_inter_iff, Set.mem_ofPred_eq, Set.mem_Ico, Set.mem_Ioc]
    constructor
    · rintro ⟨h, h0, h2⟩
      constructor
      · rcases h0.lt_or_eq with h3 | h3
        · exact h3
        · rw [← h3] at h; simp at h; norm_num at h
      · by_contra hc
        have h3 := sin_pos_of_pos_of_lt_pi (x := a - π) (by linarith [not_le.1 hc]) (by linarith)
        rw [sin_sub_pi] at h3
        rcases h with h | h
        · linarith
        · have := sin_sq_add_cos_sq a
          rw [h] at this
          nlinarith
    · rintro ⟨h, h2⟩
      refine ⟨?_, h.le, by linarith⟩
      rcases h2.lt_or_eq with h3 | h3
      · exact Or.inl (sin_pos_of_pos_of_lt_pi h h3)
      · exact Or.inr (by rw [h3, cos_pi])
  unfold uniformLaw
  rw [Measure.smul_apply, Measure.smul_apply, Measure.restrict_apply, Measure.restrict_apply, h1, h2, Real.volume_Ioo,
    Real.volume_Ioc]
  · congr 2; ring
  · have h1 : MeasurableSet {a : ℝ | 0 < sin (a - (0 : ℝ))} := measurableSet_lt measurable_const (by fun_prop)
    have h2 : MeasurableSet {a : ℝ | cos (a - (0 : ℝ)) = -1} := measurableSet_eq_fun (by fun_prop) measurable_const
    exact h1.union h2
  · exact measurableSet_lt (by fun_prop) measurable_const

/-- A law that satisfies the hypothesis of `C137_batschelet_level` for direction 0: 0 and π with probability 1/2 each. -/
example : ((1 / 2 : ENNReal) • Measure.dirac 0 + (1 / 2 : ENNReal) • Measure.dirac π : Measure ℝ) {a | 0 < cos (a - 0)}
    = 1 / 2 := by
  have hm : MeasurableSet {a : ℝ | 0 < cos (a - 0)} := measurableSet_lt measurable_const (by fun_prop)
  have hn : ¬ (0 : ℝ) < -1 := by norm_num
  rw [Measure.add_apply, Measure.smul_apply, Measure.smul_apply, Measure.dirac_apply' _ hm, Measure.dirac_apply' _ hm]
  simp [Set.indicator]

end Verif.Props
