import Verif.Model.HypUnif
import Mathlib.MeasureTheory.Constructions.Pi
import Mathlib.MeasureTheory.Integral.Lebesgue.Add
import Mathlib.Data.Fin.Tuple.Sort
import Mathlib.Tactic.FunProp

/-!
# Ranks of exchangeable statistics
-/

set_option autoImplicit false

namespace Verif

open MeasureTheory

/-- Among finitely many values at most `k` have at most `k` values not below them. -/
lemma rank_count {ι : Type*} [Fintype ι] (t : ι → ℝ) (k : ℝ) (hk : 0 ≤ k) :
    (((Finset.univ.filter fun i => ((Finset.univ.filter fun j => t i ≤ t j).card : ℝ) ≤ k).card : ℕ) : ℝ) ≤ k := by
  obtain ⟨s, hs⟩ : ∃ s, (Finset.univ.filter fun i => ((Finset.univ.filter fun j => t i ≤ t j).card : ℝ) ≤ k) = s :=
    ⟨_, rfl⟩
  rw [hs]
  rcases s.eq_empty_or_nonempty with h | h
  · simp [h, hk]
  · obtain ⟨i, hi, hmin⟩ := s.exists_min_image t h
    have h1 : ((Finset.univ.filter fun j => t i ≤ t j).card : ℝ) ≤ k := by
      rw [← hs] at hi
      exact (Finset.mem_filter.1 hi).2
    refine le_trans ?_ h1
    exact_mod_cast Finset.card_le_card fun j hj => Finset.mem_filter.2 ⟨Finset.mem_univ _, hmin j hj⟩

lemma countP_ofFn {n : ℕ} (f : Fin n → ℝ) (a : ℝ) :
    (List.ofFn f).countP (fun s => decide (a ≤ s)) = (Finset.univ.filter fun j => a ≤ f j).card := by
  induction n with
  | zero => simp
  | succ n ih =>
    rw [List.ofFn_succ, List.countP_cons, ih, Finset.card_filter, Finset.card_filter, Fin.sum_univ_succ, add_comm]
    simp only [decide_eq_true_eq]

/-- The Monte-Carlo p value as a rank. -/
lemma mcPvalue_rank {B : ℕ} (t : Fin (B + 1) → ℝ) :
    mcPvalue (List.ofFn fun i : Fin B => t i.succ) (t 0)
      = ((Finset.univ.filter fun j => t 0 ≤ t j).card : ℝ) / (B + 1) := by
  unfold mcPvalue
  have := countP_ofFn t (t 0)
  rw [List.ofFn_succ, List.countP_cons] at this
  simp only [le_refl, decide_true, if_true] at this
  rw [← this, List.length_ofFn]
  push_cast
  rfl

lemma rank_swap {ι : Type*} [Fintype ι] (t : ι → ℝ) (e : Equiv.Perm ι) (i : ι) :
    (Finset.univ.filter fun j => t (e i) ≤ t (e j)).card = (Finset.univ.filter fun j => t (e i) ≤ t j).card := by
  rw [← Finset.card_map e.toEmbedding]
  congr 1
  ext j
  simp only [Finset.mem_map, Finset.mem_filter, Finset.mem_univ, true_and, Equiv.coe_toEmbedding]
  constructor
  · rintro ⟨a, h, rfl⟩; exact h
  · intro h; exact ⟨e.symm j, by simpa using h, by simp⟩

/-- Validity of Monte-Carlo tests. -/
lemma mc_valid {S : Type*} [MeasurableSpace S] (μ : Measure S) [IsProbabilityMeasure μ] (T : S → ℝ)
    (hT : Measurable T) (B : ℕ) (α : ℝ) (hα : 0 ≤ α) :
    (Measure.pi fun _ : Fin (B + 1) => μ)
      {ω | mcPvalue (List.ofFn fun i : Fin B => T (ω i.succ)) (T (ω 0)) ≤ α} ≤ ENNReal.ofReal α := by
  obtain ⟨P, hP⟩ : ∃ P, (Measure.pi fun _ : Fin (B + 1) => μ) = P := ⟨_, rfl⟩
  obtain ⟨k, hk⟩ : ∃ k : ℝ, α * (B + 1) = k := ⟨_, rfl⟩
  have hk0 : 0 ≤ k := by rw [← hk]; positivity
  let A : Fin (B + 1) → Set (Fin (B + 1) → S) := fun i =>
    {ω | ((Finset.univ.filter fun j => T (ω i) ≤ T (ω j)).card : ℝ) ≤ k}
  have hpr : IsProbabilityMeasure P := by rw [← hP]; infer_instance
  have hmeas : ∀ i, MeasurableSet (A i) := by
    intro i
    have : Measurable fun ω : Fin (B + 1) → S => ((Finset.univ.filter fun j => T (ω i) ≤ T (ω j)).card : ℝ) := by
      have e : (fun ω : Fin (B + 1) → S => ((Finset.univ.filter fun j => T (ω i) ≤ T (ω j)).card : ℝ))
          = fun ω => ∑ j, if T (ω i) ≤ T (ω j) then (1 : ℝ) else 0 := by
        funext ω; simp
      rw [e]
      refine Finset.measurable_sum _ fun j _ => Measurable.ite ?_ measurable_const measurable_const
      exact measurableSet_le (hT.comp (measurable_pi_apply i)) (hT.comp (measurable_pi_apply j))
    exact measurableSet_le this measurable_const
  have hsame : ∀ i, P (A i) = P (A 0) := by
    intro i
    have hp := measurePreserving_piCongrLeft (fun _ : Fin (B + 1) => μ) (Equiv.swap 0 i)
    rw [hP] at hp
    have := hp.measure_preimage (hmeas 0).nullMeasurableSet
    rw [← this]
    congr 1
    ext ω
    have hap : ∀ j, (MeasurableEquiv.piCongrLeft (fun _ : Fin (B + 1) => S) (Equiv.swap 0 i)) ω j = ω (Equiv.swap 0 i j) := by
      intro j
      have h := Equiv.piCongrLeft_apply_apply (fun _ : Fin (B + 1) => S) (Equiv.swap 0 i) ω (Equiv.swap 0 i j)
      rw [Equiv.swap_apply_self] at h
      exact h
    simp only [A, Set.mem_ofPred_eq, Set.mem_preimage, hap]
    rw [rank_swap (fun j => T (ω j)) (Equiv.swap 0 i) 0, Equiv.swap_apply_left]
  have hA : {ω : Fin (B + 1) → S | mcPvalue (List.ofFn fun i : Fin B => T (ω i.succ)) (T (ω 0)) ≤ α} = A 0 := by
    ext ω
    simp only [A, Set.mem_ofPred_eq, mcPvalue_rank fun j => T (ω j)]
    rw [div_le_iff₀ (by positivity), hk]
  rw [hP, hA]
  have hsum : ∑ i, P (A i) ≤ ENNReal.ofReal k := by
    calc ∑ i, P (A i) = ∑ i, ∫⁻ ω, (A i).indicator 1 ω ∂P := by
          refine Finset.sum_congr rfl fun i _ => ?_
          rw [lintegral_indicator_one (hmeas i)]
      _ = ∫⁻ ω, ∑ i, (A i).indicator 1 ω ∂P := by
          rw [lintegral_finsetSum]
          intro i _
          exact measurable_one.indicator (hmeas i)
      _ ≤ ∫⁻ _, ENNReal.ofReal k ∂P := by
          refine lintegral_mono fun ω => ?_
          have e : ∑ i, (A i).indicator (1 : (Fin (B + 1) → S) → ENNReal) ω
              = ((Finset.univ.filter fun i => ((Finset.univ.filter fun j => T (ω i) ≤ T (ω j)).card : ℝ) ≤ k).card : ENNReal) := by
            rw [Finset.card_filter]
            push_cast
            refine Finset.sum_congr rfl fun i _ => ?_
            simp only [Set.indicator, A, Set.mem_ofPred_eq, Pi.one_apply]
          rw [e, ← ENNReal.ofReal_natCast]
          exact ENNReal.ofReal_le_ofReal (rank_count _ k hk0)
      _ = ENNReal.ofReal k := by simp
  simp only [hsame, Finset.sum_const, Finset.card_univ, Fintype.card_fin, nsmul_eq_mul] at hsum
  rw [← hk, ENNReal.ofReal_mul hα, mul_comm] at hsum
  have e2 : ENNReal.ofReal ((B : ℝ) + 1) = ((B + 1 : ℕ) : ENNReal) := by
    rw [← ENNReal.ofReal_natCast]; push_cast; rfl
  rw [e2] at hsum
  exact (ENNReal.mul_le_mul_iff_left (by simp) (ENNReal.natCast_ne_top _)).1 hsum

/-- Without ties exactly `k` of `N` values have at most `k` values not below them. -/
lemma rank_count_eq {ι : Type*} [Fintype ι] (t : ι → ℝ) (ht : Function.Injective t) (k : ℕ) (hk : k ≤ Fintype.card ι) :
    (Finset.univ.filter fun i => (Finset.univ.filter fun j => t i ≤ t j).card ≤ k).card = k := by
  classical
  let rk : ι → ℕ := fun i => (Finset.univ.filter fun j => t i ≤ t j).card
  have hlt : ∀ i j, t i < t j → rk j < rk i := by
    intro i j h
    refine Finset.card_lt_card ⟨fun l hl => ?_, fun hsub => ?_⟩
    · exact Finset.mem_filter.2 ⟨Finset.mem_univ _, h.le.trans (Finset.mem_filter.1 hl).2⟩
    · have := hsub (Finset.mem_filter.2 ⟨Finset.mem_univ i, le_rfl⟩)
      exact absurd (Finset.mem_filter.1 this).2 (not_le.2 h)
  have hinj : Function.Injective rk := by
    intro i j h
    rcases lt_trichotomy (t i) (t j) with h' | h' | h'
    · exact absurd h (hlt i j h').ne'
    · exact ht h'
    · exact absurd h (hlt j i h').ne
  have hpos : ∀ i, 1 ≤ rk i := fun i => Finset.card_pos.2 ⟨i, Finset.mem_filter.2 ⟨Finset.mem_univ _, le_rfl⟩⟩
  have himg : Finset.univ.image rk = Finset.Icc 1 (Fintype.card ι) := by
    refine Finset.eq_of_subset_of_card_le ?_ ?_
    · intro a ha
      obtain ⟨i, -, rfl⟩ := Finset.mem_image.1 ha
      exact Finset.mem_Icc.2 ⟨hpos i, Finset.card_le_univ _⟩
    · rw [Finset.card_image_of_injective _ hinj, Nat.card_Icc, Finset.card_univ]
      simp
  have e : (Finset.univ.filter fun i => rk i ≤ k).image rk = Finset.Icc 1 k := by
    ext a
    simp only [Finset.mem_image, Finset.mem_filter, Finset.mem_univ, true_and, Finset.mem_Icc]
    constructor
    · rintro ⟨i, h, rfl⟩; exact ⟨hpos i, h⟩
    · rintro ⟨h1, h2⟩
      have : a ∈ Finset.univ.image rk := by rw [himg]; exact Finset.mem_Icc.2 ⟨h1, h2.trans hk⟩
      obtain ⟨i, -, rfl⟩ := Finset.mem_image.1 this
      exact ⟨i, h2, rfl⟩
  have hc := Finset.card_image_of_injective (Finset.univ.filter fun i => rk i ≤ k) hinj
  rw [e, Nat.card_Icc, Nat.add_sub_cancel] at hc
  exact hc.symm

/-- Independent draws of a statistic without atoms have no ties. -/
lemma no_tie {S : Type*} [MeasurableSpace S] (μ : Measure S) [IsProbabilityMeasure μ] (T : S → ℝ)
    (hT : Measurable T) (hc : ∀ c, μ {x | T x = c} = 0) {N : ℕ} {i j : Fin N} (hij : i ≠ j) :
    (Measure.pi fun _ : Fin N => μ) {ω | T (ω i) = T (ω j)} = 0 := by
  obtain ⟨m, rfl⟩ : ∃ m, N = m + 1 := ⟨N - 1, by have := i.pos; omega⟩
  obtain ⟨k, rfl⟩ := Fin.exists_succAbove_eq hij.symm
  have hp := (measurePreserving_piFinSuccAbove (fun _ : Fin (m + 1) => μ) i).symm
  have hS : MeasurableSet {ω : Fin (m + 1) → S | T (ω i) = T (ω (i.succAbove k))} :=
    measurableSet_eq_fun (hT.comp (measurable_pi_apply _)) (hT.comp (measurable_pi_apply _))
  rw [← hp.measure_preimage hS.nullMeasurableSet, Measure.prod_apply (hp.measurable hS)]
  rw [lintegral_eq_zero_iff' (measurable_measure_prodMk_left (hp.measurable hS)).aemeasurable]
  refine Filter.Eventually.of_forall fun x => ?_
  have : (Prod.mk x ⁻¹' ((MeasurableEquiv.piFinSuccAbove (fun _ : Fin (m + 1) => S) i).symm ⁻¹'
      {ω : Fin (m + 1) → S | T (ω i) = T (ω (i.succAbove k))})) = Function.eval k ⁻¹' {y | T y = T x} := by
    ext y
    show T ((i.insertNth x y : Fin (m + 1) → S) i) = T ((i.insertNth x y : Fin (m + 1) → S) (i.succAbove k)) ↔ T (y k) = T x
    rw [Fin.insertNth_apply_same, Fin.insertNth_apply_succAbove, eq_comm]
  simp only [Pi.zero_apply]
  rw [this]
  exact Measure.pi_eval_preimage_null (fun _ : Fin m => μ) (hc _)

/-- Monte-Carlo tests with a statistic without atoms are exact. -/
lemma mc_exact {S : Type*} [MeasurableSpace S] (μ : Measure S) [IsProbabilityMeasure μ] (T : S → ℝ)
    (hT : Measurable T) (hc : ∀ c, μ {x | T x = c} = 0) (B k : ℕ) (hk : k ≤ B + 1) :
    (Measure.pi fun _ : Fin (B + 1) => μ)
      {ω | mcPvalue (List.ofFn fun i : Fin B => T (ω i.succ)) (T (ω 0)) ≤ (k : ℝ) / (B + 1)}
      = ENNReal.ofReal ((k : ℝ) / (B + 1)) := by
  obtain ⟨P, hP⟩ : ∃ P, (Measure.pi fun _ : Fin (B + 1) => μ) = P := ⟨_, rfl⟩
  let A : Fin (B + 1) → Set (Fin (B + 1) → S) := fun i =>
    {ω | (Finset.univ.filter fun j => T (ω i) ≤ T (ω j)).card ≤ k}
  have hpr : IsProbabilityMeasure P := by rw [← hP]; infer_instance
  have hmeas : ∀ i, MeasurableSet (A i) := by
    intro i
    have : Measurable fun ω : Fin (B + 1) → S => (Finset.univ.filter fun j => T (ω i) ≤ T (ω j)).card := by
      simp only [Finset.card_filter]
      refine Finset.measurable_sum _ fun j _ => Measurable.ite ?_ measurable_const measurable_const
      exact measurableSet_le (hT.comp (measurable_pi_apply i)) (hT.comp (measurable_pi_apply j))
    exact measurableSet_le this measurable_const
  have hsame : ∀ i, P (A i) = P (A 0) := by
    intro i
    have hp := measurePreserving_piCongrLeft (fun _ : Fin (B + 1) => μ) (Equiv.swap 0 i)
    rw [hP] at hp
    have := hp.measure_preimage (hmeas 0).nullMeasurableSet
    rw [← this]
    congr 1
    ext ω
    have hap : ∀ j, (MeasurableEquiv.piCongrLeft (fun _ : Fin (B + 1) => S) (Equiv.swap 0 i)) ω j = ω (Equiv.swap 0 i j) := by
      intro j
      have h := Equiv.piCongrLeft_apply_apply (fun _ : Fin (B + 1) => S) (Equiv.swap 0 i) ω (Equiv.swap 0 i j)
      rw [Equiv.swap_apply_self] at h
      exact h
    simp only [A, Set.mem_ofPred_eq, Set.mem_preimage, hap]
    rw [rank_swap (fun j => T (ω j)) (Equiv.swap 0 i) 0, Equiv.swap_apply_left]
  have hA : {ω : Fin (B + 1) → S | mcPvalue (List.ofFn fun i : Fin B => T (ω i.succ)) (T (ω 0)) ≤ (k : ℝ) / (B + 1)}
      = A 0 := by
    ext ω
    simp only [A, Set.mem_ofPred_eq, mcPvalue_rank fun j => T (ω j)]
    rw [div_le_div_iff_of_pos_right (by positivity), Nat.cast_le]
  rw [hP, hA]
  have hsum : ∑ i, P (A i) = k := by
    calc ∑ i, P (A i) = ∑ i, ∫⁻ ω, (A i).indicator 1 ω ∂P := by
          refine Finset.sum_congr rfl fun i _ => ?_
          rw [lintegral_indicator_one (hmeas i)]
      _ = ∫⁻ ω, ∑ i, (A i).indicator 1 ω ∂P := by
          rw [lintegral_finsetSum]
          intro i _
          exact measurable_one.indicator (hmeas i)
      _ = ∫⁻ _, (k : ENNReal) ∂P := by
          have hae : ∀ᵐ ω ∂P, ∀ i j, i ≠ j → T (ω i) ≠ T (ω j) := by
            simp only [ae_all_iff]
            intro i j hij
            rw [ae_iff, ← hP]
            simpa using no_tie μ T hT hc hij
          refine lintegral_congr_ae (hae.mono fun ω hω => ?_)
          have e : ∑ i, (A i).indicator (1 : (Fin (B + 1) → S) → ENNReal) ω
              = ((Finset.univ.filter fun i => (Finset.univ.filter fun j => T (ω i) ≤ T (ω j)).card ≤ k).card : ENNReal) := by
            rw [Finset.card_filter]
            push_cast
            refine Finset.sum_congr rfl fun i _ => ?_
            simp only [Set.indicator, A, Set.mem_ofPred_eq, Pi.one_apply]
          simp only
          rw [e, rank_count_eq (fun i => T (ω i)) (fun i j h => by_contra fun hij => hω i j hij h) k (by simpa using hk)]
      _ = k := by simp
  simp only [hsame, Finset.sum_const, Finset.card_univ, Fintype.card_fin, nsmul_eq_mul] at hsum
  have hB : ((B + 1 : ℕ) : ENNReal) ≠ 0 := by simp
  rw [ENNReal.ofReal_div_of_pos (by positivity), ENNReal.ofReal_natCast,
    show ((B : ℝ) + 1) = ((B + 1 : ℕ) : ℝ) by push_cast; rfl, ENNReal.ofReal_natCast,
    ENNReal.eq_div_iff hB (ENNReal.natCast_ne_top _)]
  exact hsum

/-- Validity of Monte-Carlo tests by counting. -/
lemma mc_valid_finite {S : Type*} [Fintype S] (T : S → ℝ) (B : ℕ) (α : ℝ) (hα : 0 ≤ α) :
    ((Finset.univ.filter fun ω : Fin (B + 1) → S =>
      mcPvalue (List.ofFn fun i : Fin B => T (ω i.succ)) (T (ω 0)) ≤ α).card : ℝ)
      ≤ α * Fintype.card (Fin (B + 1) → S) := by
  classical
  obtain ⟨k, hk⟩ : ∃ k : ℝ, α * (B + 1) = k := ⟨_, rfl⟩
  have hk0 : 0 ≤ k := by rw [← hk]; positivity
  let A : Fin (B + 1) → Finset (Fin (B + 1) → S) := fun i =>
    Finset.univ.filter fun ω => ((Finset.univ.filter fun j => T (ω i) ≤ T (ω j)).card : ℝ) ≤ k
  have hA : (Finset.univ.filter fun ω : Fin (B + 1) → S =>
      mcPvalue (List.ofFn fun i : Fin B => T (ω i.succ)) (T (ω 0)) ≤ α) = A 0 := by
    ext ω
    simp only [A, Finset.mem_filter, Finset.mem_univ, true_and, mcPvalue_rank fun j => T (ω j)]
    rw [div_le_iff₀ (by positivity), hk]
  have hsame : ∀ i, (A i).card = (A 0).card := by
    intro i
    refine Finset.card_bij (fun ω _ => ω ∘ Equiv.swap 0 i) ?_ ?_ ?_
    · intro ω h
      simp only [A, Finset.mem_filter, Finset.mem_univ, true_and, Function.comp_apply] at h ⊢
      rw [rank_swap (fun j => T (ω j)) (Equiv.swap 0 i) 0, Equiv.swap_apply_left]
      exact h
    · intro ω _ ω' _ h
      funext j
      have := congrFun h (Equiv.swap 0 i j)
      simpa using this
    · intro ω h
      refine ⟨ω ∘ Equiv.swap 0 i, ?_, by funext j; simp⟩
      simp only [A, Finset.mem_filter, Finset.mem_univ, true_and, Function.comp_apply] at h ⊢
      rw [rank_swap (fun j => T (ω j)) (Equiv.swap 0 i) i, Equiv.swap_apply_right]
      exact h
  have hsum : ∑ i, ((A i).card : ℝ) ≤ ∑ _ω : Fin (B + 1) → S, k := by
    have e : ∑ i, ((A i).card : ℝ) = ∑ ω : Fin (B + 1) → S,
        ((Finset.univ.filter fun i => ((Finset.univ.filter fun j => T (ω i) ≤ T (ω j)).card : ℝ) ≤ k).card : ℝ) := by
      simp only [A, Finset.card_filter]
      push_cast
      exact Finset.sum_comm
    rw [e]
    exact Finset.sum_le_sum fun ω _ => rank_count _ k hk0
  rw [hA]
  simp only [hsame, Finset.sum_const, Finset.card_univ, Fintype.card_fin, nsmul_eq_mul] at hsum
  rw [← hk] at hsum
  push_cast at hsum
  have hB : (0 : ℝ) < B + 1 := by positivity
  refine le_of_mul_le_mul_left (le_trans hsum (le_of_eq ?_)) hB
  ring

/-- A symmetric function of a sample is measurable if it is on ordered samples. -/
lemma measurable_symm {n : ℕ} (F : List ℝ → ℝ) (hF : ∀ l l' : List ℝ, l.Perm l' → F l = F l')
    (g : (Fin n → ℝ) → ℝ) (hg : Measurable g) (hFg : ∀ y : Fin n → ℝ, Monotone y → F (List.ofFn y) = g y) :
    Measurable fun x : Fin n → ℝ => F (List.ofFn x) := by
  refine measurable_of_Iic fun t => ?_
  have e : (fun x : Fin n → ℝ => F (List.ofFn x)) ⁻¹' Set.Iic t
      = ⋃ σ : Equiv.Perm (Fin n), {x | Monotone (x ∘ σ)} ∩ {x | g (x ∘ σ) ≤ t} := by
    ext x
    simp only [Set.mem_preimage, Set.mem_Iic, Set.mem_iUnion, Set.mem_inter_iff, Set.mem_ofPred_eq]
    have hx : ∀ σ : Equiv.Perm (Fin n), Monotone (x ∘ σ) → F (List.ofFn x) = g (x ∘ σ) := by
      intro σ h
      rw [← hFg _ h]
      exact hF _ _ (Equiv.Perm.ofFn_comp_perm σ x).symm
    constructor
    · intro h
      exact ⟨Tuple.sort x, Tuple.monotone_sort x, by rw [← hx _ (Tuple.monotone_sort x)]; exact h⟩
    · rintro ⟨σ, h1, h2⟩
      rw [hx σ h1]; exact h2
  rw [e]
  refine MeasurableSet.iUnion fun σ => MeasurableSet.inter ?_ ?_
  · have : {x : Fin n → ℝ | Monotone (x ∘ σ)} = ⋂ i, ⋂ j, ⋂ _ : i ≤ j, {x | x (σ i) ≤ x (σ j)} := by
      ext x
      simp [Monotone]
    rw [this]
    refine MeasurableSet.iInter fun i => MeasurableSet.iInter fun j => MeasurableSet.iInter fun _ => ?_
    exact measurableSet_le (measurable_pi_apply _) (measurable_pi_apply _)
  · refine measurableSet_le (hg.comp ?_) measurable_const
    exact measurable_pi_lambda _ fun i => measurable_pi_apply _

end Verif
