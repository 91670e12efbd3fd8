import Mathlib.MeasureTheory.Integral.Layercake
import Mathlib.Analysis.SpecialFunctions.Integrals.Basic
import Verif.Props.RangeExact

/-!
# C138: mean of the circular range
-/

set_option autoImplicit false

namespace Verif.Props

open Verif Verif.Spec Real MeasureTheory Finset

/-- `Σ (-1)^(k+1) C(n,k)/k = 1 + 1/2 + ... + 1/n`. -/
private lemma alt_harmonic (n : ℕ) :
    ∑ j ∈ range n, (-1 : ℝ) ^ j * (n.choose (j + 1)) / (j + 1) = ∑ j ∈ range n, 1 / ((j : ℝ) + 1) := by
  induction n with
  | zero => simp
  | succ n ih =>
    have h1 : ∀ j ∈ range (n + 1), (-1 : ℝ) ^ j * ((n + 1).choose (j + 1)) / (j + 1)
        = (-1 : ℝ) ^ j * (n.choose (j + 1)) / (j + 1) + (-1 : ℝ) ^ j * ((n + 1).choose (j + 1)) / (n + 1) := by
      intro j _
      have h2 : ((n : ℝ) + 1) * n.choose j = (n + 1).choose (j + 1) * ((j : ℝ) + 1) := by
        exact_mod_cast Nat.add_one_mul_choose_eq n j
      have h3 : ((n + 1).choose (j + 1) : ℝ) = n.choose j + n.choose (j + 1) := by
        exact_mod_cast Nat.choose_succ_succ n j
      have h4 : ((j : ℝ) + 1) ≠ 0 := by positivity
      have h5 : ((n : ℝ) + 1) ≠ 0 := by positivity
      field_simp
      rw [mul_comm _ ((j : ℝ) + 1), mul_comm ((j : ℝ) + 1), ← h2, h3]
      ring
    rw [sum_congr rfl h1, sum_add_distrib, sum_range_succ _ n, Nat.choose_eq_zero_of_lt (by omega), ih, ← sum_div]
    have h6 : ∑ j ∈ range (n + 1), (-1 : ℝ) ^ j * ((n + 1).choose (j + 1)) = 1 := by
      have h := Int.alternating_sum_range_choose_of_ne (n := n + 1) (by omega)
      rw [sum_range_succ'] at h
      have h' : ((∑ k ∈ range (n + 1), (-1 : ℤ) ^ (k + 1) * ((n + 1).choose (k + 1) : ℤ) : ℤ) : ℝ) = -1 := by
        have : (∑ k ∈ range (n + 1), (-1 : ℤ) ^ (k + 1) * ((n + 1).choose (k + 1) : ℤ)) = -1 := by
          simp only [pow_zero, Nat.choose_zero_right] at h
          push_cast at h ⊢
          linarith
        rw [this]; norm_num
      push_cast at h'
      have e : ∑ j ∈ range (n + 1), (-1 : ℝ) ^ j * ((n + 1).choose (j + 1))
          = -∑ j ∈ range (n + 1), (-1 : ℝ) ^ (j + 1) * ((n + 1).choose (j + 1)) := by
        rw [← sum_neg_distrib]
        exact sum_congr rfl fun j _ => by ring
      rw [e, h', neg_neg]
    rw [h6, sum_range_succ _ n]
    simp

private lemma term_int (m k : ℕ) (hk : 0 < k) :
    ∫ t in Set.Ioo (0 : ℝ) (2 * π), (if k * (1 - t / (2 * π)) ≤ 1 then (1 - k * (1 - t / (2 * π))) ^ m else 0)
      = 2 * π / (k * (m + 1)) := by
  have hp := two_pi_pos
  have hk' : (1 : ℝ) ≤ k := by exact_mod_cast hk
  have hk0 : (0 : ℝ) < k := by linarith
  obtain ⟨c, hc⟩ : ∃ c, c = 2 * π * (1 - 1 / k) := ⟨_, rfl⟩
  have hc0 : 0 ≤ c := by
    rw [hc]
    have : 1 / (k : ℝ) ≤ 1 := by rw [div_le_one hk0]; exact hk'
    exact mul_nonneg hp.le (by linarith)
  have hc1 : c ≤ 2 * π := by
    rw [hc]
    have : 0 < 1 / (k : ℝ) := by positivity
    nlinarith
  have hcond : ∀ t : ℝ, k * (1 - t / (2 * π)) ≤ 1 ↔ c ≤ t := fun t => by
    have e1 : k * (1 - t / (2 * π)) - 1 = (c - t) * (k / (2 * π)) := by rw [hc]; field_simp; ring
    have hpos : 0 < k / (2 * π) := by positivity
    constructor
    · intro h
      by_contra hh
      have : 0 < (c - t) * (k / (2 * π)) := mul_pos (by linarith [not_le.1 hh]) hpos
      linarith
    · intro h
      have : (c - t) * (k / (2 * π)) ≤ 0 := mul_nonpos_of_nonpos_of_nonneg (by linarith) hpos.le
      linarith
  have e : ∀ t ∈ Set.Ioo (0 : ℝ) (2 * π), (if k * (1 - t / (2 * π)) ≤ 1 then (1 - k * (1 - t / (2 * π))) ^ m else 0)
      = (Set.Ici c).indicator (fun t => (1 - k * (1 - t / (2 * π))) ^ m) t := fun t _ => by
    by_cases h : c ≤ t
    · rw [if_pos ((hcond t).2 h), Set.indicator_of_mem (Set.mem_Ici.2 h)]
    · rw [if_neg (fun h' => h ((hcond t).1 h')), Set.indicator_of_notMem (by simpa using h)]
  rw [setIntegral_congr_fun measurableSet_Ioo e, ← integral_Ioc_eq_integral_Ioo, setIntegral_indicator measurableSet_Ici]
  have hI : ∀ f : ℝ → ℝ, ∫ t in Set.Ioc 0 (2 * π) ∩ Set.Ici c, f t = ∫ t in Set.Ioc c (2 * π), f t := fun f => by
    rcases hc0.eq_or_lt with h | h
    · have : Set.Ioc 0 (2 * π) ∩ Set.Ici c = Set.Ioc c (2 * π) := by
        ext x; rw [← h]; simp only [Set.mem_inter_iff, Set.mem_Ioc, Set.mem_Ici]
        exact ⟨fun h => h.1, fun h => ⟨h, h.1.le⟩⟩
      rw [this]
    · have : Set.Ioc 0 (2 * π) ∩ Set.Ici c = Set.Icc c (2 * π) := by
        ext x; simp only [Set.mem_inter_iff, Set.mem_Ioc, Set.mem_Ici, Set.mem_Icc]
        exact ⟨fun h => ⟨h.2, h.1.2⟩, fun h' => ⟨⟨h.trans_le h'.1, h'.2⟩, h'.1⟩⟩
      rw [this, integral_Icc_eq_integral_Ioc]
  rw [hI, ← intervalIntegral.integral_of_le hc1]
  have hd : ∀ t ∈ Set.uIcc c (2 * π),
      HasDerivAt (fun t => 2 * π / (k * (m + 1)) * (1 - k * (1 - t / (2 * π))) ^ (m + 1)) ((1 - k * (1 - t / (2 * π))) ^ m) t := by
    intro t _
    have h0 : HasDerivAt (fun t : ℝ => 1 - k * (1 - t / (2 * π))) (-(k * -(1 / (2 * π)))) t :=
      ((((hasDerivAt_id t).div_const (2 * π)).const_sub 1).const_mul (k : ℝ)).const_sub 1
    refine ((h0.pow (m + 1)).const_mul (2 * π / (k * ((m : ℝ) + 1)))).congr_deriv ?_
    have : ((m : ℝ) + 1) ≠ 0 := by positivity
    simp only [Nat.add_sub_cancel]
    push_cast
    field_simp
  rw [intervalIntegral.integral_eq_sub_of_hasDerivAt hd (by apply Continuous.intervalIntegrable; fun_prop)]
  have h0 : 1 - k * (1 - c / (2 * π)) = 0 := by rw [hc]; field_simp; ring
  have h1 : 1 - k * (1 - 2 * π / (2 * π)) = 1 := by field_simp; ring
  rw [h0, h1, zero_pow (by omega)]
  ring

private lemma term_integrable (m k : ℕ) :
    IntegrableOn (fun t => (if k * (1 - t / (2 * π)) ≤ 1 then (1 - k * (1 - t / (2 * π))) ^ m else 0)) (Set.Ioo (0 : ℝ) (2 * π)) := by
  have hf : Continuous fun t : ℝ => (1 - k * (1 - t / (2 * π))) ^ m := by fun_prop
  have hI : IntegrableOn (fun t : ℝ => (1 - k * (1 - t / (2 * π))) ^ m) (Set.Ioo (0 : ℝ) (2 * π)) :=
    (hf.continuousOn.integrableOn_compact isCompact_Icc).mono_set Set.Ioo_subset_Icc_self
  have hm : MeasurableSet {t : ℝ | k * (1 - t / (2 * π)) ≤ 1} := measurableSet_le (by fun_prop) measurable_const
  have := hI.indicator hm
  refine this.congr (Filter.Eventually.of_forall fun t => ?_)
  simp only [Set.indicator, Set.mem_ofPred_eq]

/-- The circular range as a function of the sample. -/
private noncomputable def rangeOf {n : ℕ} (u : Fin n → ℝ) : ℝ :=
  match circRange (List.ofFn u) with
  | .ok r => r
  | .error _ => 0

private lemma rangeOf_ok {m : ℕ} (u : Fin (m + 1) → ℝ) : circRange (List.ofFn u) = .ok (rangeOf u) := by
  obtain ⟨L, hL, -⟩ := C26_range_shortest (List.ofFn u) (by simp)
  unfold rangeOf
  rw [hL]

/-- C138. The circular range of `n` uniform directions has mean `2π (1 - (1 + 1/2 + ... + 1/n)/n)`. -/
theorem C138_range {n : ℕ} (hn : 0 < n) :
    ∃ R : (Fin n → ℝ) → ℝ,
      (∀ u, (∀ i, |u i| ≤ 2 * π) → ∃ pval, rangeTest (List.ofFn u) = .ok (R u, pval)) ∧
      ∫ u, R u ∂uniformSample n = 2 * π * (1 - (∑ j ∈ range n, 1 / ((j : ℝ) + 1)) / n) := by
  obtain ⟨m, rfl⟩ : ∃ m, n = m + 1 := ⟨n - 1, by omega⟩
  have hp := two_pi_pos
  have hprob : IsProbabilityMeasure (uniformSample (m + 1)) := by unfold uniformSample; infer_instance
  have hb : ∀ u : Fin (m + 1) → ℝ, 0 ≤ rangeOf u ∧ rangeOf u ≤ 2 * π := fun u => by
    obtain ⟨h1, h2⟩ := C26_range_bounds _ _ (rangeOf_ok u)
    refine ⟨h1, h2.trans ?_⟩
    have : (0 : ℝ) ≤ 1 / (List.ofFn u).length := by positivity
    nlinarith
  have hset : ∀ r, {u : Fin (m + 1) → ℝ | ∃ r', circRange (List.ofFn u) = .ok r' ∧ r' ≤ r} = {u | rangeOf u ≤ r} := fun r => by
    ext u
    simp only [Set.mem_ofPred_eq, rangeOf_ok u, Except.ok.injEq, exists_eq_left']
  have hmeas : Measurable (rangeOf : (Fin (m + 1) → ℝ) → ℝ) := by
    refine measurable_of_Iic fun r => ?_
    have := range_set_meas m r
    rw [hset] at this
    exact this
  refine ⟨rangeOf, fun u hu => ⟨rangeSeries (List.ofFn u).length (rangeOf u), ?_⟩, ?_⟩
  · unfold rangeTest
    rw [if_neg (by simp), if_neg, rangeOf_ok]
    · rfl
    · rintro ⟨a, ha, h⟩
      obtain ⟨i, rfl⟩ := (List.mem_ofFn' u a).1 ha
      have := hu i
      have : (0 : ℝ) < 1 / 10 ^ 8 := by positivity
      linarith
  · have hint : Integrable (rangeOf : (Fin (m + 1) → ℝ) → ℝ) (uniformSample (m + 1)) :=
      Integrable.of_bound hmeas.aestronglyMeasurable (2 * π) (Filter.Eventually.of_forall fun u => by
        rw [Real.norm_eq_abs, abs_of_nonneg (hb u).1]; exact (hb u).2)
    rw [hint.integral_eq_integral_meas_lt (Filter.Eventually.of_forall fun u => (hb u).1)]
    obtain ⟨F, hF⟩ : ∃ F : ℝ → ℝ, F = fun t => ∑ J ∈ (univ : Finset (Fin (m + 1))).powerset with J.Nonempty, (-1 : ℝ) ^ (J.card + 1) *
        (if J.card * (1 - t / (2 * π)) ≤ 1 then (1 - J.card * (1 - t / (2 * π))) ^ m else 0) := ⟨_, rfl⟩
    have e : ∀ t ∈ Set.Ioi (0 : ℝ), (uniformSample (m + 1)).real {u | t < rangeOf u}
        = (Set.Iio (2 * π)).indicator (fun t => 1 - F t) t := by
      intro t ht
      have ht : 0 < t := ht
      by_cases h : t < 2 * π
      · rw [Set.indicator_of_mem (Set.mem_Iio.2 h)]
        have hc : {u : Fin (m + 1) → ℝ | t < rangeOf u} = {u | rangeOf u ≤ t}ᶜ := by
          ext u; simp
        rw [hc, probReal_compl_eq_one_sub (measurableSet_le hmeas measurable_const), ← hset, range_law m ht.le h, hF]
      · rw [Set.indicator_of_notMem (by simpa using h)]
        have : {u : Fin (m + 1) → ℝ | t < rangeOf u} = ∅ := by
          ext u
          simp only [Set.mem_ofPred_eq, Set.mem_empty_iff_false, iff_false, not_lt]
          exact (hb u).2.trans (not_lt.1 h)
        rw [this]; simp
    rw [setIntegral_congr_fun measurableSet_Ioi e, setIntegral_indicator measurableSet_Iio]
    have hI : Set.Ioi (0 : ℝ) ∩ Set.Iio (2 * π) = Set.Ioo 0 (2 * π) := rfl
    have hFi : ∀ J : Finset (Fin (m + 1)), IntegrableOn (fun t => (-1 : ℝ) ^ (J.card + 1) *
        (if J.card * (1 - t / (2 * π)) ≤ 1 then (1 - J.card * (1 - t / (2 * π))) ^ m else 0)) (Set.Ioo (0 : ℝ) (2 * π)) :=
      fun J => (term_integrable m J.card).const_mul _
    have hFint : IntegrableOn F (Set.Ioo (0 : ℝ) (2 * π)) := by
      rw [hF]; exact integrable_finsetSum _ fun J _ => hFi J
    rw [hI, integral_sub (by simp) hFint, hF, integral_finsetSum _ fun J _ => hFi J]
    have hterm : ∀ J ∈ ((univ : Finset (Fin (m + 1))).powerset.filter fun J => J.Nonempty),
        ∫ t in Set.Ioo (0 : ℝ) (2 * π), (-1 : ℝ) ^ (J.card + 1) *
          (if J.card * (1 - t / (2 * π)) ≤ 1 then (1 - J.card * (1 - t / (2 * π))) ^ m else 0)
        = (-1 : ℝ) ^ (J.card + 1) * (2 * π / (J.card * (m + 1))) := fun J hJ => by
      rw [integral_const_mul, term_int m J.card (card_pos.2 (mem_filter.1 hJ).2)]
    rw [sum_congr rfl hterm, sum_filter]
    have e1 : ∀ J ∈ (univ : Finset (Fin (m + 1))).powerset, (if J.Nonempty then (-1 : ℝ) ^ (J.card + 1) * (2 * π / (J.card * (m + 1))) else 0)
        = (fun j : ℕ => (-1 : ℝ) ^ (j + 1) * (2 * π / (j * (m + 1)))) J.card := by
      intro J _
      by_cases h : J.Nonempty
      · rw [if_pos h]
      · rw [if_neg h, not_nonempty_iff_eq_empty.1 h]; simp
    rw [sum_congr rfl e1]
    have e2 := sum_powerset_apply_card (fun j : ℕ => (-1 : ℝ) ^ (j + 1) * (2 * π / (j * (m + 1)))) (x := (univ : Finset (Fin (m + 1))))
    rw [e2, card_univ, Fintype.card_fin, sum_range_succ', ← alt_harmonic]
    simp only [nsmul_eq_mul]
    have e3 : ∀ j ∈ range (m + 1), ((m + 1).choose (j + 1) : ℝ) * ((-1) ^ (j + 1 + 1) * (2 * π / (((j + 1 : ℕ) : ℝ) * (m + 1))))
        = (-1 : ℝ) ^ j * ((m + 1).choose (j + 1)) / (j + 1) * (2 * π / (m + 1)) := fun j _ => by
      have h4 : ((j : ℝ) + 1) ≠ 0 := by positivity
      have h5 : ((m : ℝ) + 1) ≠ 0 := by positivity
      push_cast
      field_simp
      ring
    rw [sum_congr rfl e3, ← sum_mul]
    generalize ∑ j ∈ range (m + 1), (-1 : ℝ) ^ j * ((m + 1).choose (j + 1)) / (j + 1) = S
    have h5 : ((m : ℝ) + 1) ≠ 0 := by positivity
    simp [hp.le]
    field_simp

/-- Non-vacuity: the range of two directions is on average a quarter turn. -/
example : ∃ R : (Fin 2 → ℝ) → ℝ, (∃ pval, rangeTest [0, 1] = .ok (R ![0, 1], pval)) ∧ ∫ u, R u ∂uniformSample 2 = π / 2 := by
  obtain ⟨R, h1, h2⟩ := C138_range (n := 2) (by norm_num)
  refine ⟨R, ?_, by rw [h2, sum_range_succ, sum_range_succ]; norm_num; ring⟩
  have h := h1 ![0, 1] (fun i => by
    have := two_le_pi
    fin_cases i <;> simp <;> linarith)
  simpa using h

end Verif.Props
