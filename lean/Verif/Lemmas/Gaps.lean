import Verif.Spec.UniformLaw
import Mathlib.MeasureTheory.Integral.IntervalIntegral.FundThmCalculus
import Mathlib.Analysis.SpecialFunctions.Integrals.Basic
import Mathlib.Tactic.FunProp

/-!
# Gaps between uniform points
-/

set_option autoImplicit false

namespace Verif

open Verif.Spec Real MeasureTheory

/-- Points of `[0, L]` such that no point (and not 0) is nearer than `q` below a point of `K`. -/
def gapRegion {m : ℕ} (q L : ℝ) (K : Finset (Fin m)) : Set (Fin m → ℝ) :=
  {y | (∀ k, 0 ≤ y k ∧ y k ≤ L) ∧ ∀ i ∈ K, q ≤ y i ∧ ∀ k, y k ≤ y i - q ∨ y i ≤ y k}

instance : NullSingletonClass uniformLaw := by
  constructor
  intro x
  unfold uniformLaw
  rw [Measure.smul_apply, measure_singleton, smul_zero]

instance (n : ℕ) : IsProbabilityMeasure (uniformSample n) := by
  unfold uniformSample; infer_instance

lemma measurableSet_gapRegion {m : ℕ} (q L : ℝ) (K : Finset (Fin m)) : MeasurableSet (gapRegion q L K) := by
  have e : gapRegion q L K = (⋂ k, {y : Fin m → ℝ | 0 ≤ y k} ∩ {y | y k ≤ L}) ∩
      ⋂ i ∈ K, ({y : Fin m → ℝ | q ≤ y i} ∩ ⋂ k, ({y | y k ≤ y i - q} ∪ {y | y i ≤ y k})) := by
    ext y; simp [gapRegion]
  rw [e]
  refine MeasurableSet.inter (MeasurableSet.iInter fun k => MeasurableSet.inter ?_ ?_)
    (MeasurableSet.biInter K.countable_toSet fun i _ => MeasurableSet.inter ?_
      (MeasurableSet.iInter fun k => MeasurableSet.union ?_ ?_))
  all_goals exact measurableSet_le (by fun_prop) (by fun_prop)

/-- Splitting off one coordinate. -/
lemma uniformSample_split {m : ℕ} (i : Fin (m + 1)) {S : Set (Fin (m + 1) → ℝ)} (hS : MeasurableSet S) :
    uniformSample (m + 1) S = ∫⁻ t, uniformSample m {y | i.insertNth t y ∈ S} ∂uniformLaw := by
  have hp := (measurePreserving_piFinSuccAbove (fun _ : Fin (m + 1) => uniformLaw) i).symm
  have h := hp.measure_preimage hS.nullMeasurableSet
  unfold uniformSample
  rw [← h, Measure.prod_apply (hp.measurable hS)]
  rfl

lemma uniformSample_coord {m : ℕ} (k : Fin m) (x : ℝ) : uniformSample m {y | y k = x} = 0 :=
  Measure.pi_hyperplane (fun _ : Fin m => uniformLaw) k x

lemma uniformSample_tie {m : ℕ} {i j : Fin m} (h : i ≠ j) : uniformSample m {y | y i = y j} = 0 := by
  obtain ⟨m, rfl⟩ : ∃ m', m = m' + 1 := ⟨m - 1, by have := i.pos; omega⟩
  rw [uniformSample_split i (measurableSet_eq_fun (by fun_prop) (by fun_prop))]
  obtain ⟨k, rfl⟩ := Fin.exists_succAbove_eq h.symm
  simp only [Set.mem_ofPred_eq, Fin.insertNth_apply_same, Fin.insertNth_apply_succAbove]
  have : ∀ t : ℝ, uniformSample m {y | t = y k} = 0 := by
    intro t
    rw [show {y : Fin m → ℝ | t = y k} = {y | y k = t} by ext; simp [eq_comm]]
    exact uniformSample_coord k t
  simp [this]

/-- The remaining distinguished points. -/
def restK {m : ℕ} (i : Fin (m + 1)) (K : Finset (Fin (m + 1))) : Finset (Fin m) :=
  Finset.univ.filter fun k => i.succAbove k ∈ K

lemma card_restK {m : ℕ} (i : Fin (m + 1)) (K : Finset (Fin (m + 1))) :
    (restK i K).card + (if i ∈ K then 1 else 0) = K.card := by
  have h1 : (K.card : ℕ) = ∑ j, if j ∈ K then 1 else 0 := by simp
  rw [h1, Fin.sum_univ_succAbove _ i, restK, Finset.card_filter, add_comm]

/-- The slice of the region in which coordinate `i` is the largest. -/
lemma slice_mem {m : ℕ} {q L t : ℝ} (hq : 0 < q) (i : Fin (m + 1)) (K : Finset (Fin (m + 1))) :
    {y | i.insertNth t y ∈ gapRegion q L K ∩ {y : Fin (m + 1) → ℝ | ∀ k, k ≠ i → y k < y i}}
      = if i ∈ K then (if q ≤ t ∧ t ≤ L then gapRegion q (t - q) (restK i K) else ∅)
        else (if 0 ≤ t ∧ t ≤ L then gapRegion q t (restK i K) ∩ {y : Fin m → ℝ | ∀ k, y k ≠ t} else ∅) := by
  ext y
  have hx : i.insertNth t y ∈ gapRegion q L K ∩ {y : Fin (m + 1) → ℝ | ∀ k, k ≠ i → y k < y i} ↔
      ((0 ≤ t ∧ t ≤ L) ∧ (∀ k, 0 ≤ y k ∧ y k ≤ L)) ∧ ((i ∈ K → q ≤ t ∧ ∀ k, y k ≤ t - q ∨ t ≤ y k) ∧
        ∀ k ∈ restK i K, q ≤ y k ∧ (t ≤ y k - q ∨ y k ≤ t) ∧ ∀ l, y l ≤ y k - q ∨ y k ≤ y l) ∧ ∀ k, y k < t := by
    simp only [gapRegion, Set.mem_inter_iff, Set.mem_ofPred_eq, Fin.forall_iff_succAbove i,
      Fin.insertNth_apply_same, Fin.insertNth_apply_succAbove, restK, Finset.mem_filter, Finset.mem_univ, true_and,
      ne_eq, Fin.succAbove_ne, not_false_eq_true, not_true_eq_false, forall_const, false_imp_iff, true_and, le_refl,
      or_true]
    tauto
  rw [Set.mem_ofPred_eq, hx]
  split_ifs with hi h h
  · constructor
    · rintro ⟨⟨-, h2⟩, ⟨h3, h4⟩, h5⟩
      refine ⟨fun k => ⟨(h2 k).1, ?_⟩, fun k hk => ⟨(h4 k hk).1, (h4 k hk).2.2⟩⟩
      exact ((h3 hi).2 k).resolve_right (not_le.2 (h5 k))
    · rintro ⟨h1, h2⟩
      refine ⟨⟨⟨by linarith, h.2⟩, fun k => ⟨(h1 k).1, by linarith [(h1 k).2]⟩⟩, ⟨fun _ => ⟨h.1, fun k => Or.inl (h1 k).2⟩,
        fun k hk => ⟨(h2 k hk).1, Or.inr (by linarith [(h1 k).2]), (h2 k hk).2⟩⟩, fun k => by linarith [(h1 k).2]⟩
  · simp only [Set.mem_empty_iff_false, iff_false]
    rintro ⟨⟨h1, -⟩, ⟨h3, -⟩, -⟩
    exact h ⟨(h3 hi).1, h1.2⟩
  · constructor
    · rintro ⟨⟨-, h2⟩, ⟨-, h4⟩, h5⟩
      exact ⟨⟨fun k => ⟨(h2 k).1, (h5 k).le⟩, fun k hk => ⟨(h4 k hk).1, (h4 k hk).2.2⟩⟩, fun k => (h5 k).ne⟩
    · rintro ⟨⟨h1, h2⟩, h3⟩
      refine ⟨⟨h, fun k => ⟨(h1 k).1, by linarith [(h1 k).2]⟩⟩, ⟨fun hh => absurd hh hi,
        fun k hk => ⟨(h2 k hk).1, Or.inr (h1 k).2, (h2 k hk).2⟩⟩, fun k => lt_of_le_of_ne (h1 k).2 (h3 k)⟩
  · simp only [Set.mem_empty_iff_false, iff_false]
    rintro ⟨⟨h1, -⟩, -, -⟩
    exact h h1

lemma lint_pow {m : ℕ} {c L : ℝ} (hc : 0 ≤ c) (hL : L ≤ 2 * π) :
    ∫⁻ t, (if c ≤ t ∧ t ≤ L then ENNReal.ofReal (((t - c) / (2 * π)) ^ m) else 0) ∂uniformLaw
      = if c ≤ L then ENNReal.ofReal (((L - c) / (2 * π)) ^ (m + 1) / (m + 1)) else 0 := by
  have hp : 0 < 2 * π := by positivity
  have e : (fun t => if c ≤ t ∧ t ≤ L then ENNReal.ofReal (((t - c) / (2 * π)) ^ m) else 0)
      = (Set.Icc c L).indicator fun t => ENNReal.ofReal (((t - c) / (2 * π)) ^ m) := by
    funext t; simp [Set.indicator]
  rw [e]
  split_ifs with h
  · unfold uniformLaw
    rw [lintegral_smul_measure, lintegral_indicator measurableSet_Icc, Measure.restrict_restrict measurableSet_Icc]
    have e2 : (volume : Measure ℝ).restrict (Set.Icc c L ∩ Set.Ico 0 (2 * π)) = volume.restrict (Set.Ioc c L) := by
      refine Measure.restrict_congr_set ?_
      have h1 : (Set.Icc c L ∩ Set.Ico 0 (2 * π) : Set ℝ) =ᵐ[volume] (Set.Icc c L ∩ Set.Icc 0 (2 * π) : Set ℝ) :=
        Filter.EventuallyEq.inter (Filter.EventuallyEq.refl _ _) Ico_ae_eq_Icc
      have h2 : Set.Icc c L ∩ Set.Icc 0 (2 * π) = Set.Icc c L := by
        rw [Set.inter_eq_left]
        exact Set.Icc_subset_Icc hc hL
      rw [h2] at h1
      exact h1.trans Ioc_ae_eq_Icc.symm
    rw [e2, ← ofReal_integral_eq_lintegral_ofReal, ← intervalIntegral.integral_of_le h]
    · have e3 : ∫ t in c..L, ((t - c) / (2 * π)) ^ m = (2 * π) * (((L - c) / (2 * π)) ^ (m + 1) / (m + 1)) := by
        have e4 : ∀ t : ℝ, ((t - c) / (2 * π)) ^ m = ((2 * π) ^ m)⁻¹ * (t - c) ^ m := by
          intro t; rw [div_pow]; ring
        simp only [e4]
        rw [intervalIntegral.integral_const_mul, intervalIntegral.integral_comp_sub_right (fun s : ℝ => s ^ m) c,
          sub_self, integral_pow, zero_pow (by omega), sub_zero, div_pow, pow_succ (2 * π)]
        field_simp
      rw [e3, smul_eq_mul, ENNReal.ofReal_mul hp.le, ← mul_assoc, ENNReal.inv_mul_cancel (by simpa using hp)
        ENNReal.ofReal_ne_top, one_mul]
    · exact (Continuous.integrableOn_Icc (by fun_prop)).mono_set Set.Ioc_subset_Icc_self
    · refine (ae_restrict_iff' measurableSet_Ioc).2 (Filter.Eventually.of_forall fun t ht => ?_)
      have : 0 ≤ (t - c) / (2 * π) := div_nonneg (by linarith [ht.1]) hp.le
      exact pow_nonneg this m
  · rw [Set.Icc_eq_empty h]
    simp

/-- The probability of the region. -/
lemma measure_gapRegion {q : ℝ} (hq : 0 < q) : ∀ (m : ℕ) (K : Finset (Fin m)) (L : ℝ), 0 ≤ L → L ≤ 2 * π →
    uniformSample m (gapRegion q L K)
      = if K.card * q ≤ L then ENNReal.ofReal (((L - K.card * q) / (2 * π)) ^ m) else 0 := by
  intro m
  induction m with
  | zero =>
    intro K L h0 _
    have hK : K = ∅ := by ext i; exact i.elim0
    have : gapRegion q L K = Set.univ := by
      ext y; simp [gapRegion, hK]
    rw [this, measure_univ, hK]
    simp [h0]
  | succ m ih =>
    intro K L h0 h1
    obtain ⟨M, hM⟩ : ∃ M : Fin (m + 1) → Set (Fin (m + 1) → ℝ),
        M = fun i => {y | ∀ k, k ≠ i → y k < y i} := ⟨_, rfl⟩
    have hMm : ∀ i, MeasurableSet (M i) := by
      intro i
      have : M i = ⋂ k, ⋂ _ : k ≠ i, {y : Fin (m + 1) → ℝ | y k < y i} := by
        rw [hM]; ext y; simp
      rw [this]
      exact MeasurableSet.iInter fun k => MeasurableSet.iInter fun _ =>
        measurableSet_lt (by fun_prop) (by fun_prop)
    have hRm := measurableSet_gapRegion q L K
    have hdis : Pairwise (Function.onFun Disjoint fun i => gapRegion q L K ∩ M i) := by
      intro i j hij
      rw [Function.onFun, Set.disjoint_left]
      rintro y ⟨-, h2⟩ ⟨-, h3⟩
      rw [hM] at h2 h3
      exact lt_asymm (h2 j hij.symm) (h3 i hij)
    have hnull : uniformSample (m + 1) (gapRegion q L K \ ⋃ i, gapRegion q L K ∩ M i) = 0 := by
      have hsub : gapRegion q L K \ (⋃ i, gapRegion q L K ∩ M i) ⊆ ⋃ i, ⋃ j, ⋃ _ : i ≠ j, {y | y i = y j} := by
        rintro y ⟨hy, hn⟩
        obtain ⟨i, hi⟩ := Finite.exists_max y
        by_contra hc
        simp only [Set.mem_iUnion, Set.mem_ofPred_eq, exists_prop, not_exists, not_and] at hc
        refine hn (Set.mem_iUnion.2 ⟨i, hy, ?_⟩)
        rw [hM]
        exact fun k hk => lt_of_le_of_ne (hi k) (hc k i hk)
      refine measure_mono_null hsub ?_
      simp only [measure_iUnion_null_iff]
      exact fun i j h => uniformSample_tie h
    have hsum : uniformSample (m + 1) (gapRegion q L K) = ∑ i, uniformSample (m + 1) (gapRegion q L K ∩ M i) := by
      have hu := measure_iUnion (μ := uniformSample (m + 1)) hdis fun i => hRm.inter (hMm i)
      rw [tsum_fintype] at hu
      rw [← hu]
      have hle : (⋃ i, gapRegion q L K ∩ M i) ⊆ gapRegion q L K := Set.iUnion_subset fun i => Set.inter_subset_left
      rw [← measure_sdiff_add_inter (gapRegion q L K) (MeasurableSet.iUnion fun i => hRm.inter (hMm i)), hnull,
        Set.inter_eq_right.2 hle, zero_add]
    have hpart : ∀ i, uniformSample (m + 1) (gapRegion q L K ∩ M i)
        = if K.card * q ≤ L then ENNReal.ofReal (((L - K.card * q) / (2 * π)) ^ (m + 1) / (m + 1)) else 0 := by
      intro i
      rw [uniformSample_split i (hRm.inter (hMm i)), ← lint_pow (by positivity) h1]
      have hne : ∀ t : ℝ, uniformSample m {y : Fin m → ℝ | ∀ k, y k ≠ t}ᶜ = 0 := by
        intro t
        have : {y : Fin m → ℝ | ∀ k, y k ≠ t}ᶜ = ⋃ k, {y | y k = t} := by ext y; simp
        rw [this, measure_iUnion_null_iff]
        exact fun k => uniformSample_coord k t
      refine lintegral_congr fun t => ?_
      rw [hM, slice_mem hq i K]
      have hcard := card_restK i K
      by_cases hi : i ∈ K
      · rw [if_pos hi] at hcard ⊢
        have hc : (K.card : ℝ) = (restK i K).card + 1 := by rw [← hcard]; push_cast; rfl
        have hc0 : (0 : ℝ) ≤ (restK i K).card := by positivity
        by_cases ht : q ≤ t ∧ t ≤ L
        · rw [if_pos ht, ih _ _ (by linarith [ht.1]) (by linarith [ht.2]), hc]
          by_cases hh : (restK i K).card * q ≤ t - q
          · rw [if_pos hh, if_pos ⟨by linarith, ht.2⟩]
            congr 3; ring
          · rw [if_neg hh, if_neg]
            rintro ⟨a, -⟩
            apply hh; linarith
        · rw [if_neg ht, measure_empty, if_neg]
          rintro ⟨a, b⟩
          refine ht ⟨?_, b⟩
          rw [hc] at a
          nlinarith
      · rw [if_neg hi] at hcard ⊢
        have hc : (K.card : ℝ) = (restK i K).card := by rw [← hcard]; simp
        by_cases ht : 0 ≤ t ∧ t ≤ L
        · rw [if_pos ht, measure_inter_conull (hne t), ih _ _ ht.1 (by linarith [ht.2]), hc]
          by_cases hh : (restK i K).card * q ≤ t
          · rw [if_pos hh, if_pos ⟨hh, ht.2⟩]
          · rw [if_neg hh, if_neg (fun h => hh h.1)]
        · rw [if_neg ht, measure_empty, if_neg]
          rintro ⟨a, b⟩
          have : 0 ≤ K.card * q := by positivity
          exact ht ⟨this.trans a, b⟩
    rw [hsum, Finset.sum_congr rfl fun i _ => hpart i, Finset.sum_const, Finset.card_univ, Fintype.card_fin]
    split_ifs with h
    · rw [nsmul_eq_mul, ← ENNReal.ofReal_natCast, ← ENNReal.ofReal_mul (by positivity)]
      congr 1
      push_cast
      field_simp
    · simp

end Verif
