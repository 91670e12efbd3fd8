import Verif.Lemmas.Gaps
import Verif.Props.RangeTest
import Mathlib.MeasureTheory.Function.Floor
import Mathlib.MeasureTheory.Group.FundamentalDomain
import Mathlib.MeasureTheory.Integral.IntervalIntegral.Periodic
import Mathlib.MeasureTheory.Integral.Bochner.Set

/-!
# C91: the p value of the circular range test is exact
-/

set_option autoImplicit false

namespace Verif.Props

open Verif Verif.Spec Real MeasureTheory

private lemma meas_pymod : Measurable fun y : ℝ => pymod y (2 * π) := by
  unfold pymod
  have h : Measurable fun y : ℝ => ((⌊y / (2 * π)⌋ : ℤ) : ℝ) :=
    (measurable_from_top (f := fun k : ℤ => (k : ℝ))).comp (Int.measurable_floor.comp (measurable_id.div_const _))
  exact measurable_id.sub (measurable_const.mul h)

/-- The uniform law does not change under rotation. -/
private lemma uniform_rotate (a : ℝ) : uniformLaw.map (fun x => pymod (x - a) (2 * π)) = uniformLaw := by
  have hp := two_pi_pos'
  have hf : Measurable fun x : ℝ => pymod (x - a) (2 * π) := meas_pymod.comp (measurable_id.sub_const a)
  refine Measure.ext fun s hs => ?_
  rw [Measure.map_apply hf hs]
  unfold uniformLaw
  rw [Measure.smul_apply, Measure.smul_apply, Measure.restrict_apply (hf hs), Measure.restrict_apply hs]
  congr 1
  obtain ⟨A, hA⟩ : ∃ A, (fun x => pymod (x - a) (2 * π)) ⁻¹' s = A := ⟨_, rfl⟩
  have hAm : MeasurableSet A := by rw [← hA]; exact hf hs
  rw [hA]
  have hmv : volume (A ∩ Set.Ioc 0 (0 + 2 * π)) = volume (A ∩ Set.Ioc a (a + 2 * π)) := by
    apply IsAddFundamentalDomain.measure_set_eq (isAddFundamentalDomain_Ioc hp 0 volume)
      (isAddFundamentalDomain_Ioc hp a volume) hAm
    rintro ⟨g, hg⟩
    obtain ⟨k, rfl⟩ := AddSubgroup.mem_zmultiples_iff.mp hg
    ext u
    rw [← hA]
    show pymod (k • (2 * π) + u - a) (2 * π) ∈ s ↔ pymod (u - a) (2 * π) ∈ s
    rw [pymod_congr hp (x := k • (2 * π) + u - a) (y := u - a) ⟨k, by rw [zsmul_eq_mul]; ring⟩]
  have hae : ∀ b : ℝ, volume (A ∩ Set.Ico b (b + 2 * π)) = volume (A ∩ Set.Ioc b (b + 2 * π)) := fun b =>
    measure_congr ((ae_eq_refl A).inter Ico_ae_eq_Ioc)
  have h0 := hae 0
  rw [hmv, ← hae a, zero_add] at h0
  rw [h0]
  have hset : A ∩ Set.Ico a (a + 2 * π) = (fun x => x - a) ⁻¹' (s ∩ Set.Ico 0 (2 * π)) := by
    ext u
    rw [← hA]
    simp only [Set.mem_inter_iff, Set.mem_preimage, Set.mem_Ico]
    constructor
    · rintro ⟨h1, h2, h3⟩
      rw [pymod_eq_self hp (by linarith) (by linarith)] at h1
      exact ⟨h1, by linarith, by linarith⟩
    · rintro ⟨h1, h2, h3⟩
      rw [pymod_eq_self hp h2 h3]
      exact ⟨h1, by linarith, by linarith⟩
  rw [hset]
  simp only [sub_eq_add_neg]
  exact measure_preimage_add_right volume (-a) _

private lemma sample_rotate (m : ℕ) (a : ℝ) :
    (uniformSample m).map (fun y k => pymod (y k - a) (2 * π)) = uniformSample m := by
  have hf : Measurable fun x : ℝ => pymod (x - a) (2 * π) := meas_pymod.comp (measurable_id.sub_const a)
  unfold uniformSample
  have : ∀ i : Fin m, SigmaFinite (uniformLaw.map fun x => pymod (x - a) (2 * π)) := fun i => by
    rw [uniform_rotate]; infer_instance
  have h := Measure.pi_map_pi (μ := fun _ : Fin m => uniformLaw) (f := fun _ x => pymod (x - a) (2 * π))
    (fun _ => hf.aemeasurable)
  rw [h]
  congr 1
  funext i
  exact uniform_rotate a

/-- All points are on the arc of length `r` that starts at point `i`. -/
private def fits {n : ℕ} (r : ℝ) (i : Fin n) : Set (Fin n → ℝ) := {x | ∀ j, pymod (x j - x i) (2 * π) ≤ r}

private lemma fits_meas {n : ℕ} (r : ℝ) (i : Fin n) : MeasurableSet (fits r i) := by
  have : fits r i = ⋂ j, {x : Fin n → ℝ | pymod (x j - x i) (2 * π) ≤ r} := by ext; simp [fits]
  rw [this]
  refine MeasurableSet.iInter fun j => measurableSet_le (meas_pymod.comp ?_) measurable_const
  fun_prop

private lemma ae_range (m : ℕ) : ∀ᵐ z ∂uniformSample m, ∀ k, 0 < z k ∧ z k < 2 * π := by
  rw [ae_all_iff]
  intro k
  rw [ae_iff]
  have : uniformLaw (Set.Ioo 0 (2 * π))ᶜ = 0 := by
    unfold uniformLaw
    rw [Measure.smul_apply, Measure.restrict_apply measurableSet_Ioo.compl]
    have h : (Set.Ioo 0 (2 * π))ᶜ ∩ Set.Ico 0 (2 * π) ⊆ {(0 : ℝ)} := by
      rintro x ⟨h1, h2, h3⟩
      by_contra hx
      exact h1 ⟨lt_of_le_of_ne h2 (Ne.symm hx), h3⟩
    rw [measure_mono_null h (measure_singleton _), smul_zero]
  exact Measure.pi_eval_preimage_null (fun _ : Fin m => uniformLaw) this

private lemma measure_arcs (m : ℕ) {r : ℝ} (K : Finset (Fin m)) :
    uniformSample m {z | (∀ k, pymod (z k) (2 * π) ≤ r) ∧
      ∀ i ∈ K, pymod (-z i) (2 * π) ≤ r ∧ ∀ k, pymod (z k - z i) (2 * π) ≤ r}
      = uniformSample m (gapRegion (2 * π - r) r K) := by
  have hp := two_pi_pos'
  refine measure_congr ?_
  filter_upwards [ae_range m] with z hz
  refine propext ?_
  have hk : ∀ k, pymod (z k) (2 * π) = z k := fun k => pymod_eq_self hp (hz k).1.le (hz k).2
  have hn : ∀ k, pymod (-z k) (2 * π) = 2 * π - z k := fun k => by
    rw [pymod_congr hp (x := -z k) (y := 2 * π - z k) ⟨-1, by push_cast; ring⟩]
    exact pymod_eq_self hp (by linarith [(hz k).2]) (by linarith [(hz k).1])
  have hd1 : ∀ k i, z i ≤ z k → pymod (z k - z i) (2 * π) = z k - z i := fun k i h =>
    pymod_eq_self hp (by linarith) (by linarith [(hz k).2, (hz i).1])
  have hd2 : ∀ k i, z k < z i → pymod (z k - z i) (2 * π) = z k - z i + 2 * π := fun k i h => by
    rw [pymod_congr hp (x := z k - z i) (y := z k - z i + 2 * π) ⟨-1, by push_cast; ring⟩]
    exact pymod_eq_self hp (by linarith [(hz i).2, (hz k).1]) (by linarith)
  show ((∀ k, pymod (z k) (2 * π) ≤ r) ∧ _) ↔ ((∀ k, 0 ≤ z k ∧ z k ≤ r) ∧ _)
  simp only [hk, hn]
  constructor
  · rintro ⟨a, b⟩
    refine ⟨fun k => ⟨(hz k).1.le, a k⟩, fun i hi => ⟨by linarith [(b i hi).1], fun k => ?_⟩⟩
    by_cases h : z i ≤ z k
    · exact Or.inr h
    · have := (b i hi).2 k
      rw [hd2 k i (not_le.1 h)] at this
      left; linarith
  · rintro ⟨a, b⟩
    refine ⟨fun k => (a k).2, fun i hi => ⟨by linarith [(b i hi).1], fun k => ?_⟩⟩
    by_cases h : z i ≤ z k
    · rw [hd1 k i h]
      linarith [(a k).2, (a i).1]
    · rw [hd2 k i (not_le.1 h)]
      have := ((b i hi).2 k).resolve_right h
      linarith

/-- The probability that the arcs before all points of `J` are empty. -/
private lemma measure_fits (m : ℕ) {r : ℝ} (h0 : 0 ≤ r) (h1 : r < 2 * π) (J : Finset (Fin (m + 1)))
    (hJ : J.Nonempty) :
    uniformSample (m + 1) (⋂ i ∈ J, fits r i)
      = if J.card * (1 - r / (2 * π)) ≤ 1 then ENNReal.ofReal ((1 - J.card * (1 - r / (2 * π))) ^ m) else 0 := by
  have hp := two_pi_pos'
  obtain ⟨i₀, hi₀⟩ := hJ
  rw [uniformSample_split i₀ (Finset.measurableSet_biInter J fun i _ => fits_meas r i)]
  have key : ∀ a : ℝ, uniformSample m {y | i₀.insertNth a y ∈ ⋂ i ∈ J, fits r i}
      = uniformSample m (gapRegion (2 * π - r) r (restK i₀ J)) := by
    intro a
    have hG : MeasurableSet {z : Fin m → ℝ | (∀ k, pymod (z k) (2 * π) ≤ r) ∧
        ∀ i ∈ restK i₀ J, pymod (-z i) (2 * π) ≤ r ∧ ∀ k, pymod (z k - z i) (2 * π) ≤ r} := by
      have : {z : Fin m → ℝ | (∀ k, pymod (z k) (2 * π) ≤ r) ∧
          ∀ i ∈ restK i₀ J, pymod (-z i) (2 * π) ≤ r ∧ ∀ k, pymod (z k - z i) (2 * π) ≤ r}
          = (⋂ k, {z : Fin m → ℝ | pymod (z k) (2 * π) ≤ r}) ∩ ⋂ i ∈ restK i₀ J,
            ({z : Fin m → ℝ | pymod (-z i) (2 * π) ≤ r} ∩ ⋂ k, {z | pymod (z k - z i) (2 * π) ≤ r}) := by
        ext z; simp
      rw [this]
      refine MeasurableSet.inter (MeasurableSet.iInter fun k => ?_)
        (MeasurableSet.biInter (restK i₀ J).countable_toSet fun i _ => MeasurableSet.inter ?_
          (MeasurableSet.iInter fun k => ?_))
      all_goals exact measurableSet_le (meas_pymod.comp (by fun_prop)) measurable_const
    have hrot : Measurable fun (y : Fin m → ℝ) k => pymod (y k - a) (2 * π) :=
      measurable_pi_lambda _ fun k => meas_pymod.comp (by fun_prop)
    rw [← measure_arcs m]
    conv_rhs => rw [← sample_rotate m a]
    rw [Measure.map_apply hrot hG]
    congr 1
    ext y
    have e1 : ∀ k, pymod (pymod (y k - a) (2 * π)) (2 * π) = pymod (y k - a) (2 * π) := fun k =>
      pymod_congr hp (pymod_cong _ _)
    have e2 : ∀ k, pymod (-pymod (y k - a) (2 * π)) (2 * π) = pymod (a - y k) (2 * π) := fun k => by
      refine pymod_congr hp ?_
      obtain ⟨j, hj⟩ := pymod_cong (y k - a) (2 * π)
      exact ⟨-j, by push_cast; linarith⟩
    have e3 : ∀ k i, pymod (pymod (y k - a) (2 * π) - pymod (y i - a) (2 * π)) (2 * π) = pymod (y k - y i) (2 * π) := by
      intro k i
      refine pymod_congr hp ?_
      obtain ⟨j, hj⟩ := pymod_cong (y k - a) (2 * π)
      obtain ⟨l, hl⟩ := pymod_cong (y i - a) (2 * π)
      exact ⟨j - l, by push_cast; linarith⟩
    have hz : pymod 0 (2 * π) ≤ r := by
      rw [pymod_eq_self hp le_rfl hp]; exact h0
    simp only [fits, Set.mem_ofPred_eq, Set.mem_iInter, Set.mem_preimage, Fin.forall_iff_succAbove i₀,
      Fin.insertNth_apply_same, Fin.insertNth_apply_succAbove, restK, Finset.mem_filter, Finset.mem_univ, true_and,
      e1, e2, e3, hi₀, forall_const, sub_self, hz]
  simp only [key, lintegral_const, measure_univ, mul_one]
  rw [measure_gapRegion (by linarith) m _ r h0 h1.le]
  have hc := card_restK i₀ J
  rw [if_pos hi₀] at hc
  have hc' : (J.card : ℝ) = (restK i₀ J).card + 1 := by rw [← hc]; push_cast; rfl
  have hiff : ((restK i₀ J).card : ℝ) * (2 * π - r) ≤ r ↔ J.card * (1 - r / (2 * π)) ≤ 1 := by
    rw [hc']
    have : ((restK i₀ J).card + 1 : ℝ) * (1 - r / (2 * π)) = ((restK i₀ J).card + 1) * (2 * π - r) / (2 * π) := by
      field_simp
    rw [this, div_le_one hp]
    constructor <;> intro h <;> linarith
  have hval : (r - (restK i₀ J).card * (2 * π - r)) / (2 * π) = 1 - J.card * (1 - r / (2 * π)) := by
    rw [hc']; field_simp; ring
  rw [hval]
  by_cases h : J.card * (1 - r / (2 * π)) ≤ 1
  · rw [if_pos h, if_pos (hiff.2 h)]
  · rw [if_neg h, if_neg (fun hh => h (hiff.1 hh))]

/-- The range is at most `r` iff all points are on an arc of length `r` starting at one of them. -/
private lemma range_le_iff {n : ℕ} (hn : 0 < n) (x : Fin n → ℝ) (r : ℝ) :
    (∃ r', circRange (List.ofFn x) = .ok r' ∧ r' ≤ r) ↔ x ∈ ⋃ i, fits r i := by
  have hp := two_pi_pos'
  have hne : List.ofFn x ≠ [] := by
    intro h
    have := congrArg List.length h
    simp at this; omega
  obtain ⟨L, hL, ⟨a, ha⟩, hmin⟩ := C26_range_shortest (List.ofFn x) hne
  have hall : ∀ P : ℝ → Prop, (∀ v ∈ List.ofFn x, P v) ↔ ∀ j, P (x j) := fun P => by
    rw [List.forall_mem_ofFn_iff]
  simp only [Set.mem_iUnion, fits, Set.mem_ofPred_eq]
  constructor
  · rintro ⟨r', h, hr⟩
    rw [hL] at h
    cases h
    have ha' := (hall _).1 ha
    have : Nonempty (Fin n) := ⟨⟨0, hn⟩⟩
    obtain ⟨i, hi⟩ := Finite.exists_min fun j => pymod (x j - a) (2 * π)
    refine ⟨i, fun j => ?_⟩
    have h1 := (onArcFrom_iff _ _ _).1 (ha' j)
    have h2 := pymod_nonneg hp (x i - a)
    have h3 := pymod_lt hp (x j - a)
    have h4 := hi j
    have : pymod (x j - x i) (2 * π) = pymod (x j - a) (2 * π) - pymod (x i - a) (2 * π) := by
      rw [pymod_eq_iff hp]
      refine ⟨by linarith, by linarith, ?_⟩
      obtain ⟨k, hk⟩ := pymod_cong (x j - a) (2 * π)
      obtain ⟨l, hl⟩ := pymod_cong (x i - a) (2 * π)
      exact ⟨k - l, by push_cast; linarith⟩
    rw [this]; linarith
  · rintro ⟨i, hi⟩
    exact ⟨L, hL, hmin (x i) r ((hall _).2 fun j => (onArcFrom_iff _ _ _).2 (hi j))⟩

private lemma series_eq (m : ℕ) {Q : ℝ} (hQ : 0 < Q) :
    ∑ J ∈ (Finset.univ : Finset (Fin (m + 1))).powerset with J.Nonempty, (-1 : ℝ) ^ (J.card + 1) *
      (if J.card * Q ≤ 1 then (1 - J.card * Q) ^ m else 0)
      = ∑ j ∈ Finset.range ⌊1 / Q⌋.toNat, (-1 : ℝ) ^ j * ((m + 1).choose (j + 1)) * (1 - ((j : ℝ) + 1) * Q) ^ m := by
  have hlt : ∀ j : ℕ, j < ⌊1 / Q⌋.toNat ↔ ((j : ℝ) + 1) * Q ≤ 1 := by
    intro j
    rw [Int.lt_toNat, ← Int.add_one_le_iff, Int.le_floor, le_div_iff₀ hQ]
    push_cast; rfl
  rw [Finset.sum_filter]
  have e1 : ∀ J ∈ (Finset.univ : Finset (Fin (m + 1))).powerset, (if J.Nonempty then (-1 : ℝ) ^ (J.card + 1) *
      (if J.card * Q ≤ 1 then (1 - J.card * Q) ^ m else 0) else 0)
      = (fun j : ℕ => if j = 0 then 0 else (-1 : ℝ) ^ (j + 1) * (if j * Q ≤ 1 then (1 - j * Q) ^ m else 0)) J.card := by
    intro J _
    simp only [Finset.card_eq_zero, ← Finset.not_nonempty_iff_eq_empty]
    by_cases h : J.Nonempty <;> simp [h]
  rw [Finset.sum_congr rfl e1]
  have e2 := Finset.sum_powerset_apply_card (fun j : ℕ => if j = 0 then (0 : ℝ) else
    (-1 : ℝ) ^ (j + 1) * (if j * Q ≤ 1 then (1 - j * Q) ^ m else 0)) (x := (Finset.univ : Finset (Fin (m + 1))))
  refine Eq.trans e2 ?_
  rw [Finset.card_univ, Fintype.card_fin, Finset.sum_range_succ']
  simp only [if_pos, smul_zero, add_zero, Nat.add_eq_zero_iff, one_ne_zero, and_false, if_false]
  rw [sum_range_extend (le_max_left (m + 1) ⌊1 / Q⌋.toNat), sum_range_extend (le_max_right (m + 1) ⌊1 / Q⌋.toNat)]
  refine Finset.sum_congr rfl fun j _ => ?_
  rw [nsmul_eq_mul]
  by_cases h1 : j < m + 1
  · rw [if_pos h1]
    by_cases h2 : j < ⌊1 / Q⌋.toNat
    · rw [if_pos h2, if_pos (by have := (hlt j).1 h2; push_cast; exact this)]
      push_cast
      ring
    · rw [if_neg h2, if_neg (fun h => h2 ((hlt j).2 (by push_cast at h; exact h)))]
      simp
  · rw [if_neg h1]
    rw [Nat.choose_eq_zero_of_lt (by omega)]
    simp

lemma range_set_meas (m : ℕ) (r : ℝ) :
    MeasurableSet {x : Fin (m + 1) → ℝ | ∃ r', circRange (List.ofFn x) = .ok r' ∧ r' ≤ r} := by
  have hset : {x : Fin (m + 1) → ℝ | ∃ r', circRange (List.ofFn x) = .ok r' ∧ r' ≤ r} = ⋃ i, fits r i := by
    ext x
    rw [Set.mem_ofPred_eq, range_le_iff (by omega)]
  rw [hset]
  exact MeasurableSet.iUnion fun i => fits_meas r i

/-- The distribution function of the range of uniform angles, by inclusion and exclusion. -/
lemma range_law (m : ℕ) {r : ℝ} (h0 : 0 ≤ r) (hlt : r < 2 * π) :
    (uniformSample (m + 1)).real {x | ∃ r', circRange (List.ofFn x) = .ok r' ∧ r' ≤ r}
      = ∑ J ∈ (Finset.univ : Finset (Fin (m + 1))).powerset with J.Nonempty, (-1 : ℝ) ^ (J.card + 1) *
        (if J.card * (1 - r / (2 * π)) ≤ 1 then (1 - J.card * (1 - r / (2 * π))) ^ m else 0) := by
  have hset : {x : Fin (m + 1) → ℝ | ∃ r', circRange (List.ofFn x) = .ok r' ∧ r' ≤ r}
      = ⋃ i ∈ (Finset.univ : Finset (Fin (m + 1))), fits r i := by
    ext x
    rw [Set.mem_ofPred_eq, range_le_iff (by omega)]
    simp
  rw [hset, measureReal_biUnion_eq_sum_powerset fun i _ => fits_meas r i]
  have hterm : ∀ J ∈ ((Finset.univ : Finset (Fin (m + 1))).powerset.filter fun J => J.Nonempty),
      (-1 : ℝ) ^ (J.card + 1) * (uniformSample (m + 1)).real (⋂ i ∈ J, fits r i)
      = (-1 : ℝ) ^ (J.card + 1) * (if J.card * (1 - r / (2 * π)) ≤ 1 then (1 - J.card * (1 - r / (2 * π))) ^ m else 0) := by
    intro J hJ
    rw [measureReal_def, measure_fits m h0 hlt J (Finset.mem_filter.1 hJ).2]
    congr 1
    split_ifs with hh
    · rw [ENNReal.toReal_ofReal (pow_nonneg (by linarith) m)]
    · rfl
  exact Finset.sum_congr rfl hterm

/-- C91. The p value of the circular range test is exact: it is the probability that the range of as many
independent uniform angles is at most the range observed. -/
theorem C91_range_test_exact (alpha : List ℝ) (r p : ℝ) (h : rangeTest alpha = .ok (r, p)) :
    p = (uniformSample alpha.length).real
      {x | ∃ r', circRange (List.ofFn x) = .ok r' ∧ r' ≤ r} := by
  have hp := two_pi_pos'
  obtain ⟨hne, hr, rfl⟩ := rangeTest_ok h
  obtain ⟨h0, h1⟩ := C26_range_bounds alpha r hr
  have hl : 0 < alpha.length := List.length_pos_iff.2 hne
  have hlt : r < 2 * π := by
    have : (0 : ℝ) < 1 / alpha.length := by positivity
    nlinarith
  generalize alpha.length = n at hl
  obtain ⟨m, rfl⟩ : ∃ m, n = m + 1 := ⟨n - 1, by omega⟩
  have hQ : 0 < 1 - r / (2 * π) := by
    have : r / (2 * π) < 1 := (div_lt_one hp).2 hlt
    linarith
  rw [range_law m h0 hlt, series_eq m hQ]
  unfold rangeSeries
  simp only [Nat.add_sub_cancel]
  rw [Finset.sum_eq_multiset_sum]
  rfl

/-- A sample that is accepted. -/
example : ∃ r p, rangeTest [0, 1] = .ok (r, p) := by
  have := two_le_pi
  obtain ⟨r, p, h, -⟩ := C91_range_test [0, 1] (by simp) (by
    intro a ha
    rcases List.mem_pair.1 ha with rfl | rfl
    · simp; positivity
    · rw [abs_one]; linarith)
  exact ⟨r, p, h⟩

/-- C136. The circular range test: for uniform data the p value is at most `α` with probability at most `α`. -/
theorem C136_range_level (n : ℕ) (α : ℝ) :
    uniformSample n {x | ∃ r p, rangeTest (List.ofFn x) = .ok (r, p) ∧ p ≤ α} ≤ ENNReal.ofReal α := by
  obtain ⟨A, hA⟩ : ∃ A, {x : Fin n → ℝ | ∃ r p, rangeTest (List.ofFn x) = .ok (r, p) ∧ p ≤ α} = A := ⟨_, rfl⟩
  rw [hA]
  let E : ℝ → Set (Fin n → ℝ) := fun r => {x | ∃ r', circRange (List.ofFn x) = .ok r' ∧ r' ≤ r}
  let D : Set ℝ := {r | ∃ x p, rangeTest (List.ofFn (n := n) x) = .ok (r, p) ∧ p ≤ α}
  have hE : ∀ r ∈ D, uniformSample n (E r) ≤ ENNReal.ofReal α := by
    rintro r ⟨x, p, h, hp⟩
    have := C91_range_test_exact _ r p h
    rw [List.length_ofFn] at this
    rw [← ENNReal.ofReal_toReal (measure_ne_top (uniformSample n) (E r))]
    refine ENNReal.ofReal_le_ofReal ?_
    rw [← measureReal_def, ← this]
    exact hp
  have hmem : ∀ x ∈ A, ∃ r ∈ D, x ∈ E r ∧ circRange (List.ofFn x) = .ok r := by
    intro x hx
    rw [← hA] at hx
    obtain ⟨r, p, h, hp⟩ := hx
    have h2 := (rangeTest_ok h).2.1
    exact ⟨r, ⟨x, p, h, hp⟩, ⟨r, h2, le_rfl⟩, h2⟩
  rcases D.eq_empty_or_nonempty with hD | hD
  · have : A = ∅ := by
      rw [Set.eq_empty_iff_forall_notMem]
      intro x hx
      obtain ⟨r, hr, -⟩ := hmem x hx
      rw [hD] at hr
      exact hr
    rw [this, measure_empty]
    exact zero_le
  have hbdd : BddAbove D := by
    refine ⟨2 * π, ?_⟩
    rintro r ⟨x, p, h, -⟩
    have h3 := C26_range_bounds _ r (rangeTest_ok h).2.1
    have : (0 : ℝ) ≤ 1 / (List.ofFn x).length := by positivity
    nlinarith [two_pi_pos', h3.2]
  by_cases hs : sSup D ∈ D
  · refine le_trans (measure_mono ?_) (hE _ hs)
    intro x hx
    obtain ⟨r, hr, -, h⟩ := hmem x hx
    exact ⟨r, h, le_csSup hbdd hr⟩
  · obtain ⟨u, hu, hlim, huD⟩ := exists_seq_tendsto_sSup hD hbdd
    have hsub : A ⊆ ⋃ k, E (u k) := by
      intro x hx
      obtain ⟨r, hr, -, h⟩ := hmem x hx
      have hlt : r < sSup D := lt_of_le_of_ne (le_csSup hbdd hr) (fun e => hs (e ▸ hr))
      obtain ⟨k, hk⟩ := (hlim.eventually (lt_mem_nhds hlt)).exists
      exact Set.mem_iUnion.2 ⟨k, r, h, hk.le⟩
    refine le_trans (measure_mono hsub) ?_
    have hmono : Monotone fun k => E (u k) := by
      rintro k l hkl x ⟨r', h, h'⟩
      exact ⟨r', h, h'.trans (hu hkl)⟩
    rw [hmono.measure_iUnion]
    exact iSup_le fun k => hE _ (huD k)

end Verif.Props
