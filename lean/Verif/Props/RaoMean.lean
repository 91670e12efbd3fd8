import Mathlib.MeasureTheory.Integral.Layercake
import Mathlib.Analysis.SpecialFunctions.Integrals.Basic
import Verif.Lemmas.Gaps
import Verif.Lemmas.NoAtoms
import Verif.Props.RaoSpacing

/-!
# C138: mean of Rao's spacing statistic
-/

set_option autoImplicit false

namespace Verif.Props

open Verif Verif.Spec Real MeasureTheory Finset

/-- Way from one angle in `[0, 2π)` forward to another, a full turn to itself. -/
private noncomputable def fwd (z : ℝ) : ℝ := if 0 < z then z else z + 2 * π

/-- Way from observation `i` forward to the next. -/
private noncomputable def gapAfter {n : ℕ} (u : Fin n → ℝ) (i : Fin n) : ℝ :=
  univ.inf' (⟨i, mem_univ i⟩ : (univ : Finset (Fin n)).Nonempty) fun j => fwd (u j - u i)

private lemma lt_gap {n : ℕ} (u : Fin n → ℝ) (i : Fin n) (q : ℝ) : q < gapAfter u i ↔ ∀ j, q < fwd (u j - u i) := by
  unfold gapAfter
  exact (lt_inf'_iff _).trans ⟨fun h j => h j (mem_univ j), fun h j _ => h j⟩

private lemma gap_le {n : ℕ} (u : Fin n → ℝ) (i j : Fin n) : gapAfter u i ≤ fwd (u j - u i) := inf'_le _ (mem_univ j)

private lemma gap_le_turn {n : ℕ} (u : Fin n → ℝ) (i : Fin n) : gapAfter u i ≤ 2 * π := by
  have := gap_le u i i
  simpa [fwd] using this

private lemma gap_perm {n : ℕ} (u : Fin n → ℝ) (σ : Equiv.Perm (Fin n)) (i : Fin n) :
    gapAfter (u ∘ σ) i = gapAfter u (σ i) := by
  refine eq_of_forall_lt_iff fun q => ?_
  rw [lt_gap, lt_gap]
  exact ⟨fun h j => by simpa using h (σ.symm j), fun h j => h (σ j)⟩

private lemma gaps_sorted {m : ℕ} {v : Fin (m + 1) → ℝ} (hv : StrictMono v) (hr : ∀ i, 0 ≤ v i ∧ v i < 2 * π) :
    raoSpacings (List.ofFn v) = List.ofFn (gapAfter v) := by
  have h1 : ∀ i : Fin m, gapAfter v i.castSucc = v i.succ - v i.castSucc := fun i => by
    refine le_antisymm ?_ ?_
    · refine (gap_le v i.castSucc i.succ).trans (le_of_eq ?_)
      unfold fwd
      rw [if_pos (sub_pos.2 (hv (Fin.castSucc_lt_succ)))]
    · refine le_inf' _ _ fun j _ => ?_
      unfold fwd
      split_ifs with h
      · have hj : i.castSucc < j := hv.lt_iff_lt.1 (sub_pos.1 h)
        have := hv.monotone (Fin.castSucc_lt_iff_succ_le.1 hj)
        linarith
      · have := (hr j).1; have := (hr i.succ).2; linarith
  have h2 : gapAfter v (Fin.last m) = 2 * π - v (Fin.last m) + v 0 := by
    refine le_antisymm ?_ ?_
    · refine (gap_le v (Fin.last m) 0).trans (le_of_eq ?_)
      unfold fwd
      rw [if_neg (by have := hv.monotone (Fin.le_last 0); linarith)]
      ring
    · refine le_inf' _ _ fun j _ => ?_
      unfold fwd
      rw [if_neg (by have := hv.monotone (Fin.le_last j); linarith)]
      have := hv.monotone (Fin.zero_le j)
      linarith
  have h3 : (List.ofFn v).getLastD 0 = v (Fin.last m) := by
    rw [List.ofFn_succ', List.concat_eq_append, List.getLastD_concat]
  have h4 : (List.ofFn v).headD 0 = v 0 := by rw [List.ofFn_succ]; rfl
  unfold raoSpacings
  rw [diff_ofFn, h3, h4, List.ofFn_succ' (gapAfter v), List.concat_eq_append, h2]
  simp only [h1]

private lemma rao_gaps {m : ℕ} {u : Fin (m + 1) → ℝ} (hu : Function.Injective u) (hr : ∀ i, 0 ≤ u i ∧ u i < 2 * π) :
    raoU (List.ofFn u) = ∑ i, max (gapAfter u i - 2 * π / (m + 1)) 0 := by
  have hv : StrictMono (u ∘ Tuple.sort u) :=
    (Tuple.monotone_sort u).strictMono_of_injective (hu.comp (Tuple.sort u).injective)
  have hs : sortR (List.ofFn u) = List.ofFn (u ∘ Tuple.sort u) := by
    rw [← sorted_ofFn hv.monotone]
    exact sortR_eq_of_perm (Equiv.Perm.ofFn_comp_perm (Tuple.sort u) u).symm
  have hsum : ∑ i, gapAfter u i = 2 * π := by
    have := sum_raoSpacings (s := List.ofFn (u ∘ Tuple.sort u)) (by simp)
    rw [gaps_sorted hv fun i => hr _, List.sum_ofFn] at this
    rw [← this]
    simp only [gap_perm]
    rw [Equiv.sum_comp (Tuple.sort u) (gapAfter u)]
  unfold raoU
  rw [hs, gaps_sorted hv fun i => hr _, List.map_ofFn, List.sum_ofFn, List.length_ofFn]
  simp only [Function.comp_apply, gap_perm]
  rw [Equiv.sum_comp (Tuple.sort u) (fun i => |gapAfter u i - 2 * π / ((m + 1 : ℕ) : ℝ)|)]
  have habs : ∀ x : ℝ, |x| = 2 * max x 0 - x := fun x => by
    rcases le_total 0 x with h | h
    · rw [abs_of_nonneg h, max_eq_left h]; ring
    · rw [abs_of_nonpos h, max_eq_right h]; ring
  simp only [habs]
  rw [sum_sub_distrib, sum_sub_distrib, hsum, ← mul_sum]
  simp only [sum_const, card_univ, Fintype.card_fin, nsmul_eq_mul]
  push_cast
  generalize ∑ i, max (gapAfter u i - 2 * π / ((m : ℝ) + 1)) 0 = S
  have : ((m : ℝ) + 1) ≠ 0 := by positivity
  field_simp
  ring

private lemma ae_range : ∀ᵐ t ∂uniformLaw, 0 ≤ t ∧ t < 2 * π := by
  unfold uniformLaw
  refine Measure.ae_smul_measure ?_ _
  exact ae_restrict_mem measurableSet_Ico

private lemma ae_range_sample (n : ℕ) : ∀ᵐ u ∂uniformSample n, ∀ i, 0 ≤ u i ∧ u i < 2 * π := by
  rw [ae_all_iff]
  intro i
  have := (measurePreserving_eval (fun _ : Fin n => uniformLaw) i).quasiMeasurePreserving.ae ae_range
  exact this

private lemma ae_injective (n : ℕ) : ∀ᵐ u ∂uniformSample n, Function.Injective u := by
  have : ∀ᵐ u ∂uniformSample n, ∀ i j : Fin n, i ≠ j → u i ≠ u j := by
    rw [ae_all_iff]; intro i
    rw [ae_all_iff]; intro j
    by_cases h : i = j
    · exact Filter.Eventually.of_forall fun _ h' => absurd h h'
    · have := uniformSample_tie h
      rw [← compl_mem_ae_iff] at this
      filter_upwards [this] with u hu _ using hu
  filter_upwards [this] with u hu i j h
  by_contra hne
  exact hu i j hne h

private lemma fwd_meas : Measurable fwd := by
  unfold fwd
  exact Measurable.ite measurableSet_Ioi measurable_id (by fun_prop)

private lemma arc_measure {q t : ℝ} (hq0 : 0 ≤ q) (ht : 0 ≤ t ∧ t < 2 * π) :
    uniformLaw {y | q < fwd (y - t)} = ENNReal.ofReal (1 - q / (2 * π)) := by
  have hp := two_pi_pos
  have hm : MeasurableSet {y | q < fwd (y - t)} :=
    measurableSet_lt measurable_const (fwd_meas.comp (by fun_prop))
  have hvol : volume ({y | q < fwd (y - t)} ∩ Set.Ico 0 (2 * π)) = ENNReal.ofReal (2 * π - q) := by
    rcases lt_or_ge (t + q) (2 * π) with h | h
    · have e : {y | q < fwd (y - t)} ∩ Set.Ico 0 (2 * π) = Set.Icc 0 t ∪ Set.Ioo (t + q) (2 * π) := by
        ext y
        simp only [Set.mem_inter_iff, Set.mem_ofPred_eq, Set.mem_Ico, Set.mem_union, Set.mem_Icc, Set.mem_Ioo, fwd]
        constructor
        · rintro ⟨h1, h2, h3⟩
          split_ifs at h1 with h4
          · right; constructor <;> linarith
          · left; constructor <;> linarith
        · rintro (⟨h1, h2⟩ | ⟨h1, h2⟩)
          · rw [if_neg (by linarith)]; refine ⟨?_, ?_, ?_⟩ <;> linarith
          · rw [if_pos (by linarith)]; refine ⟨?_, ?_, ?_⟩ <;> linarith [ht.1]
      rw [e, measure_union _ measurableSet_Ioo, Real.volume_Icc, Real.volume_Ioo, ← ENNReal.ofReal_add]
      · congr 1; ring
      · linarith [ht.1]
      · linarith
      · rw [Set.disjoint_left]
        rintro y ⟨_, h1⟩ ⟨h2, _⟩
        linarith
    · have e : {y | q < fwd (y - t)} ∩ Set.Ico 0 (2 * π) = Set.Ioc (t + q - 2 * π) t := by
        ext y
        simp only [Set.mem_inter_iff, Set.mem_ofPred_eq, Set.mem_Ico, Set.mem_Ioc, fwd]
        constructor
        · rintro ⟨h1, h2, h3⟩
          split_ifs at h1 with h4
          · exfalso; linarith
          · constructor <;> linarith
        · rintro ⟨h1, h2⟩
          rw [if_neg (by linarith)]; refine ⟨?_, ?_, ?_⟩ <;> linarith [ht.2]
      rw [e, Real.volume_Ioc]
      congr 1; ring
  unfold uniformLaw
  rw [Measure.smul_apply, Measure.restrict_apply hm, hvol, smul_eq_mul, ← ENNReal.ofReal_inv_of_pos hp, ← ENNReal.ofReal_mul (by positivity)]
  congr 1
  field_simp

private lemma gap_meas {n : ℕ} (i : Fin n) : Measurable fun u : Fin n → ℝ => gapAfter u i := by
  refine measurable_of_Ioi fun q => ?_
  have : (fun u : Fin n → ℝ => gapAfter u i) ⁻¹' Set.Ioi q = ⋂ j, {u : Fin n → ℝ | q < fwd (u j - u i)} := by
    ext u
    simp only [Set.mem_preimage, Set.mem_Ioi, Set.mem_iInter, Set.mem_ofPred_eq]
    exact lt_gap u i q
  rw [this]
  exact MeasurableSet.iInter fun j => measurableSet_lt measurable_const (fwd_meas.comp (by fun_prop))

private lemma gap_law {m : ℕ} (i : Fin (m + 1)) {q : ℝ} (hq0 : 0 ≤ q) (hq : q < 2 * π) :
    uniformSample (m + 1) {u | q < gapAfter u i} = ENNReal.ofReal ((1 - q / (2 * π)) ^ m) := by
  have hp := two_pi_pos
  have h1 : 0 ≤ 1 - q / (2 * π) := by rw [sub_nonneg, div_le_one hp]; exact hq.le
  rw [uniformSample_split i (measurableSet_lt measurable_const (gap_meas i))]
  have : ∀ᵐ t ∂uniformLaw, uniformSample m {y | i.insertNth t y ∈ {u : Fin (m + 1) → ℝ | q < gapAfter u i}}
      = ENNReal.ofReal ((1 - q / (2 * π)) ^ m) := by
    filter_upwards [ae_range] with t ht
    have e : {y | i.insertNth t y ∈ {u : Fin (m + 1) → ℝ | q < gapAfter u i}}
        = Set.univ.pi fun _ : Fin m => {y : ℝ | q < fwd (y - t)} := by
      ext y
      simp only [Set.mem_ofPred_eq, Set.mem_univ_pi]
      rw [lt_gap, Fin.forall_iff_succAbove i]
      simp only [Fin.insertNth_apply_same, Fin.insertNth_apply_succAbove, sub_self]
      exact ⟨fun h => h.2, fun h => ⟨by simpa [fwd] using hq, h⟩⟩
    refine (congrArg (uniformSample m) e).trans ?_
    unfold uniformSample
    rw [Measure.pi_pi]
    simp only [arc_measure hq0 ht, prod_const, card_univ, Fintype.card_fin]
    rw [ENNReal.ofReal_pow h1]
  rw [lintegral_congr_ae this]
  simp

private lemma gap_mean {m : ℕ} (i : Fin (m + 1)) {c : ℝ} (hc0 : 0 ≤ c) (hc : c ≤ 2 * π) :
    Integrable (fun u => max (gapAfter u i - c) 0) (uniformSample (m + 1)) ∧
    ∫ u, max (gapAfter u i - c) 0 ∂uniformSample (m + 1) = 2 * π * (1 - c / (2 * π)) ^ (m + 1) / (m + 1) := by
  have hp := two_pi_pos
  have hprob : IsProbabilityMeasure (uniformSample (m + 1)) := by unfold uniformSample; infer_instance
  have hint : Integrable (fun u => max (gapAfter u i - c) 0) (uniformSample (m + 1)) := by
    refine Integrable.of_bound (((gap_meas i).sub_const c).max measurable_const).aestronglyMeasurable (2 * π)
      (Filter.Eventually.of_forall fun u => ?_)
    rw [Real.norm_eq_abs, abs_of_nonneg (le_max_right _ _)]
    exact max_le (by have := gap_le_turn u i; linarith) hp.le
  refine ⟨hint, ?_⟩
  rw [hint.integral_eq_integral_meas_lt (Filter.Eventually.of_forall fun u => le_max_right _ _)]
  have e : ∀ t ∈ Set.Ioi (0 : ℝ), (uniformSample (m + 1)).real {u | t < max (gapAfter u i - c) 0}
      = (Set.Iio (2 * π - c)).indicator (fun t => (1 - (c + t) / (2 * π)) ^ m) t := by
    intro t ht
    have ht : 0 < t := ht
    have e1 : {u : Fin (m + 1) → ℝ | t < max (gapAfter u i - c) 0} = {u | c + t < gapAfter u i} := by
      ext u
      simp only [Set.mem_ofPred_eq, lt_max_iff]
      constructor
      · rintro (h | h) <;> linarith
      · intro h; left; linarith
    rw [e1]
    by_cases h : t < 2 * π - c
    · rw [Set.indicator_of_mem (Set.mem_Iio.2 h), measureReal_def, gap_law i (by linarith) (by linarith), ENNReal.toReal_ofReal]
      refine pow_nonneg ?_ _
      rw [sub_nonneg, div_le_one hp]
      linarith
    · rw [Set.indicator_of_notMem (by simpa using h)]
      have : {u : Fin (m + 1) → ℝ | c + t < gapAfter u i} = ∅ := by
        ext u
        simp only [Set.mem_ofPred_eq, Set.mem_empty_iff_false, iff_false, not_lt]
        have := gap_le_turn u i
        linarith
      rw [this]; simp
  rw [setIntegral_congr_fun measurableSet_Ioi e, setIntegral_indicator measurableSet_Iio]
  have hI : Set.Ioi (0 : ℝ) ∩ Set.Iio (2 * π - c) = Set.Ioo 0 (2 * π - c) := rfl
  rw [hI, ← integral_Ioc_eq_integral_Ioo, ← intervalIntegral.integral_of_le (by linarith)]
  have hd : ∀ t ∈ Set.uIcc 0 (2 * π - c),
      HasDerivAt (fun t => -(2 * π / (m + 1)) * (1 - (c + t) / (2 * π)) ^ (m + 1)) ((1 - (c + t) / (2 * π)) ^ m) t := by
    intro t _
    have h0 : HasDerivAt (fun t : ℝ => 1 - (c + t) / (2 * π)) (-(1 / (2 * π))) t :=
      (((hasDerivAt_id t).const_add c).div_const (2 * π)).const_sub 1
    have h1 := (h0.pow (m + 1)).const_mul (-(2 * π / ((m : ℝ) + 1)))
    refine h1.congr_deriv ?_
    have : ((m : ℝ) + 1) ≠ 0 := by positivity
    simp only [Nat.add_sub_cancel]
    push_cast
    field_simp
  rw [intervalIntegral.integral_eq_sub_of_hasDerivAt hd (by apply Continuous.intervalIntegrable; fun_prop)]
  have : (1 - (c + (2 * π - c)) / (2 * π)) = 0 := by field_simp; ring
  rw [this, add_zero, zero_pow (by omega)]
  ring

/-- C138. Rao's spacing statistic, in degrees: of `n` uniform directions its mean is `360 (1 - 1/n)ⁿ`. -/
theorem C138_rao {n : ℕ} (hn : 0 < n) (B : ℤ) (draws : List (List ℝ)) (hB : 1 ≤ B) :
    ∃ U : (Fin n → ℝ) → ℝ,
      (∀ u, ∃ pval, raoSpacingTest (List.ofFn u) none B draws = .ok (U u, pval)) ∧
      ∫ u, U u ∂uniformSample n = 360 * (1 - 1 / (n : ℝ)) ^ n := by
  obtain ⟨m, rfl⟩ : ∃ m, n = m + 1 := ⟨n - 1, by omega⟩
  have hp := two_pi_pos
  have hm : (0 : ℝ) < (m : ℝ) + 1 := by positivity
  refine ⟨fun u => raoU (List.ofFn u) * (180 / π), fun u => ⟨mcPvalue (draws.map raoU) (raoU (List.ofFn u)), ?_⟩, ?_⟩
  · unfold raoSpacingTest raoExpand
    rw [if_neg (by omega), if_neg (by simp)]; rfl
  · rw [integral_mul_const]
    have hae : ∀ᵐ u ∂uniformSample (m + 1), raoU (List.ofFn u) = ∑ i, max (gapAfter u i - 2 * π / (m + 1)) 0 := by
      filter_upwards [ae_range_sample (m + 1), ae_injective (m + 1)] with u h1 h2 using rao_gaps h2 h1
    have hc : 2 * π / ((m : ℝ) + 1) ≤ 2 * π := div_le_self hp.le (by linarith)
    rw [integral_congr_ae hae, integral_finsetSum _ fun i _ => (gap_mean i (by positivity) hc).1]
    simp only [(gap_mean _ (by positivity) hc).2, sum_const, card_univ, Fintype.card_fin, nsmul_eq_mul]
    push_cast
    have e : 2 * π / ((m : ℝ) + 1) / (2 * π) = 1 / (m + 1) := by field_simp
    rw [e]
    have := pi_pos
    field_simp
    ring

/-- Non-vacuity: four directions give `360 · 81/256 = 113.90625` degrees. -/
example (draws : List (List ℝ)) : ∃ U : (Fin 4 → ℝ) → ℝ,
    (∀ u, ∃ pval, raoSpacingTest (List.ofFn u) none 10000 draws = .ok (U u, pval)) ∧
      ∫ u, U u ∂uniformSample 4 = 113.90625 := by
  obtain ⟨U, h1, h2⟩ := C138_rao (n := 4) (by norm_num) 10000 draws (by norm_num)
  exact ⟨U, h1, by rw [h2]; norm_num⟩

end Verif.Props
