import Verif.Lemmas.BestFisher
import Verif.Lemmas.Fisher
import Verif.Props.DistCartwrightB
import Verif.Props.DistFlatB

/-! # C102: samples of the von Mises distribution -/

set_option autoImplicit false

namespace Verif

open Verif.Spec Real MeasureTheory

/-- The law of one uniform draw from `[0, 1)`. -/
noncomputable def unif : Measure ℝ := volume.restrict (Set.Ico 0 1)

instance : IsProbabilityMeasure unif := ⟨by unfold unif; simp⟩

lemma unif_Iic {g : ℝ} (h0 : 0 < g) (h1 : g ≤ 1) : unif (Set.Iic g) = ENNReal.ofReal g := by
  unfold unif
  have h : unif (Set.Iic g) = unif (Set.Iio g) := by
    refine le_antisymm ?_ (measure_mono Set.Iio_subset_Iic_self)
    unfold unif
    rw [← Set.Iio_insert, Set.insert_eq]
    refine (measure_union_le _ _).trans ?_
    rw [(by simp [Measure.restrict_apply] : (volume.restrict (Set.Ico (0 : ℝ) 1)) {g} = 0), zero_add]
  unfold unif at h
  rw [h, Measure.restrict_apply measurableSet_Iio,
    show Set.Iio g ∩ Set.Ico (0 : ℝ) 1 = Set.Ico 0 g from ?_]
  · simp
  · ext u; simp only [Set.mem_inter_iff, Set.mem_Iio, Set.mem_Ico]
    exact ⟨fun h => ⟨h.2.1, h.1⟩, fun h => ⟨h.2, h.1, by linarith [h.2]⟩⟩

lemma unif_Iio_half : unif (Set.Iio (1 / 2)) = ENNReal.ofReal (1 / 2) := by
  unfold unif
  rw [Measure.restrict_apply measurableSet_Iio,
    show Set.Iio (1 / 2) ∩ Set.Ico (0 : ℝ) 1 = Set.Ico 0 (1 / 2) from ?_]
  · rw [volume_Ico]; norm_num
  · ext u; simp only [Set.mem_inter_iff, Set.mem_Iio, Set.mem_Ico]
    exact ⟨fun h => ⟨h.2.1, h.1⟩, fun h => ⟨h.2, h.1, by linarith [h.2]⟩⟩

lemma unif_Ioi_half : unif (Set.Ioi (1 / 2)) = ENNReal.ofReal (1 / 2) := by
  unfold unif
  rw [Measure.restrict_apply measurableSet_Ioi,
    show Set.Ioi (1 / 2) ∩ Set.Ico (0 : ℝ) 1 = Set.Ioo (1 / 2) 1 from ?_]
  · rw [volume_Ioo]; norm_num
  · ext u; simp only [Set.mem_inter_iff, Set.mem_Ioi, Set.mem_Ico, Set.mem_Ioo]
    exact ⟨fun h => ⟨h.1, h.2.2⟩, fun h => ⟨h.1, by linarith [h.1], h.2⟩⟩

/-- The law of the three draws of a trial. -/
noncomputable def unif3 : Measure (ℝ × ℝ × ℝ) := unif.prod (unif.prod unif)

instance : IsProbabilityMeasure unif3 := by unfold unif3; infer_instance

lemma bfF_continuous {r : ℝ} (hr : 1 < r) : Continuous (bfF r) := by
  unfold bfF
  exact Continuous.div (by fun_prop) (by fun_prop) fun u => (bf_den hr).ne'

lemma bfG_pos {kappa r u : ℝ} (hk : 0 < kappa) (hr : 1 < r) :
    0 < bfG kappa r (bfF r u) ∧ bfG kappa r (bfF r u) ≤ 1 :=
  bf_prob (mul_pos hk (by linarith [(bfF_mem (u := u) hr).2]))

lemma meas_accept {kappa r : ℝ} (hr : 1 < r) : MeasurableSet {p : ℝ × ℝ × ℝ | p.2.1 ≤ bfG kappa r (bfF r p.1)} := by
  have h := bfF_continuous hr
  refine measurableSet_le (by fun_prop) ?_
  unfold bfG
  exact Continuous.measurable (by fun_prop)

lemma meas_angle {r : ℝ} (hr : 1 < r) {T : Set ℝ} (hT : MeasurableSet T) :
    MeasurableSet {p : ℝ × ℝ × ℝ | arccos (bfF r p.1) ∈ T} := by
  have h := (continuous_arccos.comp (bfF_continuous hr)).comp (continuous_fst (X := ℝ) (Y := ℝ × ℝ))
  exact h.measurable hT

/-- The mass of the accepted trials with deviation in `T` and last draw in `B`. -/
lemma trial_mass {kappa r : ℝ} (hk : 0 < kappa) (hr : 1 < r) {T B : Set ℝ} (hT : MeasurableSet T) (hB : MeasurableSet B) :
    unif3 {p | arccos (bfF r p.1) ∈ T ∧ p.2.1 ≤ bfG kappa r (bfF r p.1) ∧ p.2.2 ∈ B}
      = unif B * ∫⁻ t in T ∩ Set.Ioo 0 π,
          ENNReal.ofReal (kappa * √(r ^ 2 - 1) / π * exp (1 - kappa * r) * exp (kappa * cos t)) := by
  have hm : MeasurableSet {p : ℝ × ℝ × ℝ | arccos (bfF r p.1) ∈ T ∧ p.2.1 ≤ bfG kappa r (bfF r p.1) ∧ p.2.2 ∈ B} :=
    (meas_angle hr hT).inter ((meas_accept hr).inter ((measurable_snd.comp measurable_snd) hB))
  unfold unif3
  rw [Measure.prod_apply hm]
  have hs : ∀ u, (unif.prod unif) (Prod.mk u ⁻¹' {p : ℝ × ℝ × ℝ | arccos (bfF r p.1) ∈ T ∧
      p.2.1 ≤ bfG kappa r (bfF r p.1) ∧ p.2.2 ∈ B})
      = unif B * ({u | arccos (bfF r u) ∈ T} : Set ℝ).indicator (fun u => ENNReal.ofReal (bfG kappa r (bfF r u))) u := by
    intro u
    by_cases h : arccos (bfF r u) ∈ T
    · rw [Set.indicator_of_mem (by exact h), show Prod.mk u ⁻¹' {p : ℝ × ℝ × ℝ | arccos (bfF r p.1) ∈ T ∧
        p.2.1 ≤ bfG kappa r (bfF r p.1) ∧ p.2.2 ∈ B} = Set.Iic (bfG kappa r (bfF r u)) ×ˢ B from ?_, Measure.prod_prod,
        unif_Iic (bfG_pos hk hr).1 (bfG_pos hk hr).2, mul_comm]
      ext q
      simp [h]
    · rw [Set.indicator_of_notMem (by exact h), show Prod.mk u ⁻¹' {p : ℝ × ℝ × ℝ | arccos (bfF r p.1) ∈ T ∧
        p.2.1 ≤ bfG kappa r (bfF r p.1) ∧ p.2.2 ∈ B} = ∅ from ?_, measure_empty, mul_zero]
      ext q
      simp [h]
  simp only [hs]
  have hmi : Measurable fun u => ({u | arccos (bfF r u) ∈ T} : Set ℝ).indicator
      (fun u => ENNReal.ofReal (bfG kappa r (bfF r u))) u := by
    have h := bfF_continuous hr
    refine Measurable.indicator ?_ ((continuous_arccos.comp h).measurable hT)
    unfold bfG
    exact (Continuous.measurable (by fun_prop)).ennreal_ofReal
  rw [lintegral_const_mul _ hmi, ← bf_mass hk hr T hT]
  congr 1
  unfold unif
  rw [Measure.restrict_congr_set (Ioo_ae_eq_Ico (μ := volume) (a := (0 : ℝ)) (b := 1)).symm]

/-! ## Folding the deviations back onto the circle -/

section Fold

variable {G : ℝ → ℝ}

/-- The indicator of the samples up to `x`, times a kernel, as a function of the deviation. -/
noncomputable def foldInd (G : ℝ → ℝ) (m x : ℝ) : ℝ → ℝ := Set.indicator {y | pymod (m + y) (2 * π) ≤ x} G

lemma foldInd_integrable (hc : Continuous G) (m x a b : ℝ) : IntervalIntegrable (foldInd G m x) volume a b := by
  have h := hc.intervalIntegrable (μ := volume) a b
  exact ⟨h.1.indicator (cwInd_meas m x), h.2.indicator (cwInd_meas m x)⟩

lemma foldInd_periodic (hp : Function.Periodic G (2 * π)) (m x : ℝ) : Function.Periodic (foldInd G m x) (2 * π) := by
  intro y
  unfold foldInd Set.indicator
  have e : pymod (m + (y + 2 * π)) (2 * π) = pymod (m + y) (2 * π) :=
    pymod_congr two_pi_pos ⟨1, by push_cast; ring⟩
  simp only [Set.mem_ofPred_eq, e, hp y]

lemma foldInd_integral (hc : Continuous G) (hp : Function.Periodic G (2 * π)) {m x : ℝ} (hx0 : 0 ≤ x) (hx1 : x ≤ 2 * π) :
    ∫ y in (-π)..π, foldInd G m x y = ∫ t in (0 : ℝ)..x, G (t - m) := by
  have h1 : ∫ y in (-π)..π, foldInd G m x y = ∫ t in (0 : ℝ)..(2 * π), foldInd G m x (t - m) := by
    rw [intervalIntegral.integral_comp_sub_right (fun y => foldInd G m x y) m, zero_sub,
      show 2 * π - m = -m + 2 * π by ring, (foldInd_periodic hp m x).intervalIntegral_add_eq (-m) (-π)]
    congr 1; ring
  have hi : ∀ a b, IntervalIntegrable (fun t => foldInd G m x (t - m)) volume a b := fun a b => by
    simpa using (foldInd_integrable hc m x (a - m) (b - m)).comp_sub_right m
  rw [h1, ← intervalIntegral.integral_add_adjacent_intervals (hi 0 x) (hi x (2 * π))]
  have e : ∀ t, foldInd G m x (t - m) = if pymod t (2 * π) ≤ x then G (t - m) else 0 := by
    intro t
    unfold foldInd Set.indicator
    simp only [Set.mem_ofPred_eq, show m + (t - m) = t by ring]
  have h2 : ∫ t in (0 : ℝ)..x, foldInd G m x (t - m) = ∫ t in (0 : ℝ)..x, G (t - m) := by
    rw [intervalIntegral.integral_of_le hx0, intervalIntegral.integral_of_le hx0, integral_Ioc_eq_integral_Ioo,
      integral_Ioc_eq_integral_Ioo]
    refine setIntegral_congr_fun measurableSet_Ioo fun t ht => ?_
    show foldInd G m x (t - m) = _
    rw [e, if_pos]
    rw [pymod_eq_self two_pi_pos ht.1.le (by linarith [ht.2])]
    exact ht.2.le
  have h3 : ∫ t in x..(2 * π), foldInd G m x (t - m) = 0 := by
    rw [intervalIntegral.integral_of_le hx1, integral_Ioc_eq_integral_Ioo]
    refine setIntegral_eq_zero_of_forall_eq_zero fun t ht => ?_
    rw [e, if_neg]
    rw [pymod_eq_self two_pi_pos (by linarith [ht.1]) ht.2, not_le]
    exact ht.1
  rw [h2, h3, add_zero]

lemma fold_lint (hc : Continuous G) (h0 : ∀ t, 0 ≤ G t) {S : Set ℝ} (hS : MeasurableSet S) :
    (∫⁻ t in S ∩ Set.Ioo 0 π, ENNReal.ofReal (G t)).toReal = ∫ t in (0 : ℝ)..π, S.indicator G t := by
  rw [← integral_eq_lintegral_of_nonneg_ae (Filter.Eventually.of_forall h0) hc.aestronglyMeasurable,
    intervalIntegral.integral_of_le pi_pos.le, integral_indicator hS, Measure.restrict_restrict hS]
  congr 1
  exact Measure.restrict_congr_set (Filter.EventuallyEq.inter (Filter.EventuallyEq.refl _ _) Ioo_ae_eq_Ioc)

end Fold

/-! ## One trial -/

lemma vmTrial_eq {mu kappa : ℝ} (hk : 0 < kappa) (u1 u2 u3 : ℝ) : vmTrial mu kappa u1 u2 u3 =
    if u2 ≤ bfG kappa (bfR kappa) (bfF (bfR kappa) u1) then
      some (pymod (pymod mu (2 * π) + (SignType.sign (u3 - 1 / 2) : ℝ) * arccos (bfF (bfR kappa) u1)) (2 * π)) else none := by
  obtain ⟨hr, -, he⟩ := bfR_spec hk
  unfold vmTrial
  simp only
  rw [he]
  have hc : 0 < kappa * (bfR kappa - bfF (bfR kappa) u1) := mul_pos hk (by linarith [(bfF_mem (u := u1) hr).2])
  have hf : (1 + bfR kappa * cos (π * u1)) / (bfR kappa + cos (π * u1)) = bfF (bfR kappa) u1 := rfl
  rw [hf]
  have ha := bf_accept (u := u2) hc
  unfold bfG
  by_cases h : u2 ≤ kappa * (bfR kappa - bfF (bfR kappa) u1) * exp (1 - kappa * (bfR kappa - bfF (bfR kappa) u1))
  · rw [if_pos (ha.2 h), if_pos h]
  · rw [if_neg (fun h' => h (ha.1 h')), if_neg h]

/-- The trials that give a sample up to `x`. -/
def trialSet (mu kappa x : ℝ) : Set (ℝ × ℝ × ℝ) := {p | ∃ y, vmTrial mu kappa p.1 p.2.1 p.2.2 = some y ∧ y ≤ x}

/-- The same with the sign of the deviation fixed. -/
private def part (m kappa x e : ℝ) (B : Set ℝ) : Set (ℝ × ℝ × ℝ) :=
  {p | arccos (bfF (bfR kappa) p.1) ∈ {t : ℝ | pymod (m + e * t) (2 * π) ≤ x} ∧
    p.2.1 ≤ bfG kappa (bfR kappa) (bfF (bfR kappa) p.1) ∧ p.2.2 ∈ B}

private lemma part_meas {kappa : ℝ} (hk : 0 < kappa) (m x e : ℝ) {B : Set ℝ} (hB : MeasurableSet B) :
    MeasurableSet (part m kappa x e B) := by
  have hr := (bfR_spec hk).1
  exact (meas_angle hr ((measurable_pymod.comp (measurable_const.add (measurable_const.mul measurable_id)))
    measurableSet_Iic)).inter ((meas_accept hr).inter ((measurable_snd.comp measurable_snd) hB))

private lemma trialSet_eq {mu kappa x : ℝ} (hk : 0 < kappa) : trialSet mu kappa x =
    part (pymod mu (2 * π)) kappa x (-1) (Set.Iio (1 / 2)) ∪ part (pymod mu (2 * π)) kappa x 1 (Set.Ioi (1 / 2))
      ∪ part (pymod mu (2 * π)) kappa x 0 {1 / 2} := by
  ext ⟨u1, u2, u3⟩
  unfold trialSet part
  simp only [Set.mem_ofPred_eq, Set.mem_union, Set.mem_Iio, Set.mem_Ioi, Set.mem_singleton_iff, vmTrial_eq hk]
  by_cases ha : u2 ≤ bfG kappa (bfR kappa) (bfF (bfR kappa) u1)
  · rw [if_pos ha]
    simp only [Option.some.injEq, exists_eq_left', ha, true_and]
    rcases lt_trichotomy u3 (1 / 2) with h | h | h
    · rw [sign_neg (by linarith)]
      simp only [h, h.ne, h.not_gt, and_true, and_false, or_false, SignType.coe_neg_one]
    · subst h
      simp
    · rw [sign_pos (by linarith)]
      simp only [h, h.ne', h.not_gt, and_true, and_false, or_false, false_or, SignType.coe_one]
  · rw [if_neg ha]
    simp [ha]

lemma trialSet_meas {kappa : ℝ} (hk : 0 < kappa) (mu x : ℝ) : MeasurableSet (trialSet mu kappa x) := by
  rw [trialSet_eq hk]
  exact ((part_meas hk _ _ _ measurableSet_Iio).union (part_meas hk _ _ _ measurableSet_Ioi)).union
    (part_meas hk _ _ _ (measurableSet_singleton _))

/-- The probability that a trial is accepted. -/
noncomputable def vmAccept (kappa : ℝ) : ℝ :=
  kappa * √(bfR kappa ^ 2 - 1) * exp (1 - kappa * bfR kappa) * besselI 0 kappa

lemma trial_prob {mu kappa x : ℝ} (hk : 0 < kappa) (hx0 : 0 ≤ x) (hx1 : x ≤ 2 * π) :
    unif3.real (trialSet mu kappa x) = vmAccept kappa * ∫ t in (0 : ℝ)..x, vonMises mu kappa t := by
  have hr := (bfR_spec hk).1
  obtain ⟨m, hm⟩ : ∃ m, m = pymod mu (2 * π) := ⟨_, rfl⟩
  rw [trialSet_eq hk, ← hm]
  obtain ⟨G, hG⟩ : ∃ G : ℝ → ℝ, G = fun t => kappa * √(bfR kappa ^ 2 - 1) / π * exp (1 - kappa * bfR kappa)
      * exp (kappa * cos t) := ⟨_, rfl⟩
  have hc : Continuous G := by rw [hG]; fun_prop
  have hp : Function.Periodic G (2 * π) := fun t => by rw [hG]; simp only [cos_add_two_pi]
  have he : ∀ t, G (-t) = G t := fun t => by rw [hG]; simp only [cos_neg]
  have h0 : ∀ t, 0 ≤ G t := fun t => by rw [hG]; have := pi_pos; positivity
  have hT : ∀ e : ℝ, MeasurableSet {t : ℝ | pymod (m + e * t) (2 * π) ≤ x} := fun e =>
    (measurable_pymod.comp (measurable_const.add (measurable_const.mul measurable_id))) measurableSet_Iic
  have hpart : ∀ (e : ℝ) (B : Set ℝ), MeasurableSet B → unif3.real (part m kappa x e B)
      = unif.real B * ∫ t in (0 : ℝ)..π, ({t : ℝ | pymod (m + e * t) (2 * π) ≤ x}).indicator G t := by
    intro e B hB
    rw [measureReal_def, part, trial_mass hk hr (hT e) hB, ENNReal.toReal_mul, ← fold_lint hc h0 (hT e), hG]
    rfl
  have hz : unif3 (part m kappa x 0 {1 / 2}) = 0 := by
    rw [part, trial_mass hk hr (hT 0) (measurableSet_singleton _), show unif {1 / 2} = 0 from ?_, zero_mul]
    unfold unif
    simp [Measure.restrict_apply]
  have hd : Disjoint (part m kappa x (-1) (Set.Iio (1 / 2))) (part m kappa x 1 (Set.Ioi (1 / 2))) := by
    rw [Set.disjoint_left]
    rintro p h1 h2
    exact lt_asymm (show p.2.2 < 1 / 2 from h1.2.2) h2.2.2
  rw [measureReal_def, measure_congr (union_ae_eq_left_of_ae_eq_empty (ae_eq_empty.2 hz)), ← measureReal_def,
    measureReal_union hd (part_meas hk _ _ _ measurableSet_Ioi), hpart _ _ measurableSet_Iio, hpart _ _ measurableSet_Ioi,
    measureReal_def, measureReal_def, unif_Iio_half, unif_Ioi_half, ENNReal.toReal_ofReal (by norm_num)]
  have b1 : ∫ t in (0 : ℝ)..π, ({t : ℝ | pymod (m + -1 * t) (2 * π) ≤ x}).indicator G t
      = ∫ t in (-π)..(0 : ℝ), foldInd G m x t := by
    have := intervalIntegral.integral_comp_neg (fun t => foldInd G m x t) (a := (0 : ℝ)) (b := π)
    rw [neg_zero] at this
    rw [← this]
    refine intervalIntegral.integral_congr fun t _ => ?_
    show Set.indicator _ _ t = foldInd G m x (-t)
    unfold foldInd Set.indicator
    simp only [Set.mem_ofPred_eq, he, neg_one_mul]
  have b2 : ∫ t in (0 : ℝ)..π, ({t : ℝ | pymod (m + 1 * t) (2 * π) ≤ x}).indicator G t
      = ∫ t in (0 : ℝ)..π, foldInd G m x t := by
    simp only [one_mul]
    rfl
  have hi := foldInd_integrable hc m x
  have hsum := intervalIntegral.integral_add_adjacent_intervals (hi (-π) 0) (hi 0 π)
  rw [foldInd_integral hc hp hx0 hx1] at hsum
  rw [b1, b2, ← mul_add, hsum, ← intervalIntegral.integral_const_mul, ← intervalIntegral.integral_const_mul]
  refine intervalIntegral.integral_congr fun t _ => ?_
  have hper : cos (t - m) = cos (t - mu) := by
    obtain ⟨k, hk'⟩ := pymod_form mu
    rw [hm, hk', show t - (mu + k * (2 * π)) = t - mu - k * (2 * π) by ring, cos_sub_int_mul_two_pi]
  show 1 / 2 * G (t - m) = vmAccept kappa * vonMises mu kappa t
  rw [hG]
  unfold vmAccept vonMises
  simp only [hper]
  have := (besselI_zero_pos kappa).ne'
  have := pi_ne_zero
  field_simp

/-- At least one trial in eight is accepted. -/
lemma vmAccept_ge {kappa : ℝ} (hk : 0 < kappa) : 1 / 8 ≤ vmAccept kappa := by
  obtain ⟨hr, h2, -⟩ := bfR_spec hk
  obtain ⟨s, hs⟩ : ∃ s, s = kappa * bfR kappa := ⟨_, rfl⟩
  have hs1 : s = (1 + √(1 + 4 * kappa ^ 2)) / 2 := by
    rw [hs]; unfold bfR; field_simp
  have hq2 : √(1 + 4 * kappa ^ 2) ^ 2 = 1 + 4 * kappa ^ 2 := sq_sqrt (by positivity)
  have hq0 : 0 ≤ √(1 + 4 * kappa ^ 2) := sqrt_nonneg _
  have hqa : √(1 + 4 * kappa ^ 2) ≤ 1 + 2 * kappa := by nlinarith
  have hqb : 2 * kappa ≤ √(1 + 4 * kappa ^ 2) := by nlinarith
  have hsa : s ≤ kappa + 1 := by linarith
  have hsb : kappa + 1 / 2 ≤ s := by linarith
  have hroot : kappa * √(bfR kappa ^ 2 - 1) = √s := by
    rw [h2, hs, show kappa * bfR kappa = kappa ^ 2 * (bfR kappa / kappa) by field_simp,
      sqrt_mul (sq_nonneg _), sqrt_sq hk.le]
  have hb := bessel_lower hk.le
  unfold vmAccept
  rw [hroot, ← hs]
  have hI : exp (kappa - 1 / 2) / (π * √(kappa + 1)) ≤ besselI 0 kappa := by
    rw [div_le_iff₀ (by have := pi_pos; positivity)]
    rw [div_le_iff₀ (by positivity)] at hb
    linarith
  have h3 : √s * exp (1 - s) * (exp (kappa - 1 / 2) / (π * √(kappa + 1))) ≤ √s * exp (1 - s) * besselI 0 kappa :=
    mul_le_mul_of_nonneg_left hI (by positivity)
  refine le_trans ?_ h3
  have h4 : √s * exp (1 - s) * (exp (kappa - 1 / 2) / (π * √(kappa + 1)))
      = √(s / (kappa + 1)) * exp (1 - s + (kappa - 1 / 2)) / π := by
    rw [sqrt_div (by linarith), exp_add]
    field_simp
  rw [h4, le_div_iff₀ pi_pos]
  have h5 : 7 / 10 ≤ √(s / (kappa + 1)) := by
    apply le_sqrt_of_sq_le
    rw [le_div_iff₀ (by linarith)]
    linarith
  have h6 : 6 / 10 ≤ exp (1 - s + (kappa - 1 / 2)) := by
    have h7 : exp (-(1 / 2)) ≤ exp (1 - s + (kappa - 1 / 2)) := exp_le_exp.2 (by linarith)
    refine le_trans ?_ h7
    have h8 : exp (-(1 / 2)) ^ 2 = exp (-1) := by rw [← exp_nat_mul]; norm_num
    have h9 : (6 / 10 : ℝ) ^ 2 ≤ exp (-1) := by
      rw [exp_neg, le_inv_comm₀ (by norm_num) (exp_pos _)]
      have := exp_one_lt_d9
      norm_num at this ⊢
      linarith
    nlinarith [exp_pos (-(1 / 2) : ℝ)]
  nlinarith [pi_lt_d2, pi_pos]

/-! ## The loop -/

/-- The draws of `n` trials. -/
noncomputable def unifTrials (n : ℕ) : Measure (Fin n → ℝ × ℝ × ℝ) := Measure.pi fun _ => unif3

private lemma loop_prob {mu kappa x : ℝ} (hk : 1 / 10 ^ 9 < kappa) (hx0 : 0 ≤ x) (hx1 : x ≤ 2 * π) (u0 : ℝ) (n : ℕ) :
    MeasurableSet {t : Fin n → ℝ × ℝ × ℝ | ∃ y, vmRvs mu kappa u0 (List.ofFn t) = some y ∧ y ≤ x} ∧
    (unifTrials n).real {t | ∃ y, vmRvs mu kappa u0 (List.ofFn t) = some y ∧ y ≤ x}
      = (1 - (1 - vmAccept kappa) ^ n) * ∫ t in (0 : ℝ)..x, vonMises mu kappa t := by
  have hk0 : 0 < kappa := lt_trans (by norm_num) hk
  have hacc : ∀ p : ℝ × ℝ × ℝ, vmTrial mu kappa p.1 p.2.1 p.2.2 = none ↔ p ∈ (trialSet mu kappa (2 * π))ᶜ := by
    intro p
    unfold trialSet
    rw [Set.mem_compl_iff, Set.mem_ofPred_eq, vmTrial_eq hk0]
    split_ifs
    · simp only [reduceCtorEq, Option.some.injEq, exists_eq_left', false_iff, not_not]
      exact (pymod_lt two_pi_pos _).le
    · simp
  have hall : unif3.real (trialSet mu kappa (2 * π)) = vmAccept kappa := by
    rw [trial_prob hk0 two_pi_pos.le le_rfl, vonMises_mass, mul_one]
  induction n with
  | zero =>
    have : {t : Fin 0 → ℝ × ℝ × ℝ | ∃ y, vmRvs mu kappa u0 (List.ofFn t) = some y ∧ y ≤ x} = ∅ := by
      ext t
      have e : vmRvs mu kappa u0 (List.ofFn t) = none := by
        unfold vmRvs
        rw [if_neg (not_le.2 hk)]
        simp
      rw [Set.mem_ofPred_eq, e]
      simp
    rw [this]
    simp
  | succ n ih =>
    obtain ⟨S, hS⟩ : ∃ S, S = {t : Fin n → ℝ × ℝ × ℝ | ∃ y, vmRvs mu kappa u0 (List.ofFn t) = some y ∧ y ≤ x} := ⟨_, rfl⟩
    rw [← hS] at ih
    have hset : {t : Fin (n + 1) → ℝ × ℝ × ℝ | ∃ y, vmRvs mu kappa u0 (List.ofFn t) = some y ∧ y ≤ x}
        = MeasurableEquiv.piFinSuccAbove (fun _ => ℝ × ℝ × ℝ) 0 ⁻¹'
          (trialSet mu kappa x ×ˢ Set.univ ∪ (trialSet mu kappa (2 * π))ᶜ ×ˢ S) := by
      ext t
      have e : MeasurableEquiv.piFinSuccAbove (fun _ => ℝ × ℝ × ℝ) 0 t = (t 0, fun i => t i.succ) := rfl
      rw [Set.mem_preimage, e, Set.mem_union, Set.mem_prod, Set.mem_prod, ← hacc, hS]
      simp only [Set.mem_univ, and_true, Set.mem_ofPred_eq]
      unfold vmRvs trialSet
      rw [if_neg (not_le.2 hk), if_neg (not_le.2 hk), List.ofFn_succ, List.findSome?_cons, Set.mem_ofPred_eq]
      cases hv : vmTrial mu kappa (t 0).1 (t 0).2.1 (t 0).2.2 with
      | none => simp
      | some y => simp
    have hmP : MeasurableSet (trialSet mu kappa x ×ˢ Set.univ ∪ (trialSet mu kappa (2 * π))ᶜ ×ˢ S) :=
      ((trialSet_meas hk0 mu x).prod MeasurableSet.univ).union ((trialSet_meas hk0 mu _).compl.prod ih.1)
    refine ⟨by rw [hset]; exact (MeasurableEquiv.measurable _) hmP, ?_⟩
    have hmp := measurePreserving_piFinSuccAbove (fun _ : Fin (n + 1) => unif3) 0
    have hprod : (unifTrials (n + 1)).real (MeasurableEquiv.piFinSuccAbove (fun _ => ℝ × ℝ × ℝ) 0 ⁻¹'
          (trialSet mu kappa x ×ˢ Set.univ ∪ (trialSet mu kappa (2 * π))ᶜ ×ˢ S))
        = (unif3.prod (unifTrials n)).real (trialSet mu kappa x ×ˢ Set.univ ∪ (trialSet mu kappa (2 * π))ᶜ ×ˢ S) := by
      rw [measureReal_def, measureReal_def]
      exact congrArg ENNReal.toReal (hmp.measure_preimage hmP.nullMeasurableSet)
    have : IsProbabilityMeasure (unifTrials n) := by unfold unifTrials; infer_instance
    have hdis : Disjoint (trialSet mu kappa x ×ˢ (Set.univ : Set (Fin n → ℝ × ℝ × ℝ))) ((trialSet mu kappa (2 * π))ᶜ ×ˢ S) := by
      rw [Set.disjoint_left]
      rintro ⟨p, q⟩ h1 h2
      obtain ⟨y, hy, hyx⟩ := h1.1
      exact h2.1 ⟨y, hy, hyx.trans hx1⟩
    rw [hset, hprod, measureReal_union hdis ((trialSet_meas hk0 mu _).compl.prod ih.1), measureReal_prod_prod,
      measureReal_prod_prod, ih.2, trial_prob hk0 hx0 hx1, probReal_compl_eq_one_sub (trialSet_meas hk0 mu _), hall,
      probReal_univ]
    ring

/-- **C102.** Samples of the von Mises distribution, `kappa` above `1e-9`, any `mu`. Every trial of the rejection loop is
accepted with the same probability `A ≥ 1/8` (over its three uniform draws), and the probability that `n` trials give a
sample up to `x` is `1 - (1 - A)ⁿ`, the probability that one of them is accepted, times the integral of the density from
0 to `x`: samples follow the distribution exactly. All samples lie in `[0, 2π)`. -/
theorem C102_vonmises {mu kappa : ℝ} (hk : 1 / 10 ^ 9 < kappa) (u0 : ℝ) : ∃ A, 1 / 8 ≤ A ∧ A ≤ 1 ∧
    (∀ n, (unifTrials n).real {t | ∃ y, vmRvs mu kappa u0 (List.ofFn t) = some y} = 1 - (1 - A) ^ n) ∧
    (∀ n x, 0 ≤ x → x ≤ 2 * π → (unifTrials n).real {t | ∃ y, vmRvs mu kappa u0 (List.ofFn t) = some y ∧ y ≤ x}
      = (1 - (1 - A) ^ n) * ∫ t in (0 : ℝ)..x, vonMises mu kappa t) ∧
    ∀ l y, vmRvs mu kappa u0 l = some y → 0 ≤ y ∧ y < 2 * π := by
  have hk0 : 0 < kappa := lt_trans (by norm_num) hk
  have hmem : ∀ l y, vmRvs mu kappa u0 l = some y → 0 ≤ y ∧ y < 2 * π := by
    intro l y h
    unfold vmRvs at h
    rw [if_neg (not_le.2 hk)] at h
    obtain ⟨p, -, hp⟩ := List.exists_of_findSome?_eq_some h
    rw [vmTrial_eq hk0] at hp
    split_ifs at hp
    obtain rfl := Option.some.inj hp
    exact ⟨pymod_nonneg two_pi_pos _, pymod_lt two_pi_pos _⟩
  refine ⟨vmAccept kappa, vmAccept_ge hk0, ?_, fun n => ?_, fun n x h0 h1 => (loop_prob hk h0 h1 u0 n).2, hmem⟩
  · have h := trial_prob (mu := mu) hk0 two_pi_pos.le le_rfl
    rw [vonMises_mass, mul_one] at h
    rw [← h]
    exact measureReal_le_one
  · have h := (loop_prob (mu := mu) hk two_pi_pos.le le_rfl u0 n).2
    rw [vonMises_mass, mul_one] at h
    rw [← h]
    congr 1
    ext t
    exact ⟨fun ⟨y, hy⟩ => ⟨y, hy, (hmem _ _ hy).2.le⟩, fun ⟨y, hy, _⟩ => ⟨y, hy⟩⟩

private lemma besselI_zero_range {k : ℝ} (hk : 0 ≤ k) : exp (-k) ≤ besselI 0 k ∧ besselI 0 k ≤ exp k := by
  have h := besselI_pi 0 k
  have hc := bessel_cont 0 k
  have lo : ∫ _ in (0 : ℝ)..π, exp (-k) ≤ ∫ t in (0 : ℝ)..π, exp (k * cos t) * cos ((0 : ℕ) * t) :=
    intervalIntegral.integral_mono_on pi_pos.le (by simp) (hc.intervalIntegrable _ _) fun t _ => by
      simp only [Nat.cast_zero, zero_mul, cos_zero, mul_one]
      exact exp_le_exp.2 (by nlinarith [neg_one_le_cos t])
  have hi : ∫ t in (0 : ℝ)..π, exp (k * cos t) * cos ((0 : ℕ) * t) ≤ ∫ _ in (0 : ℝ)..π, exp k :=
    intervalIntegral.integral_mono_on pi_pos.le (hc.intervalIntegrable _ _) (by simp) fun t _ => by
      simp only [Nat.cast_zero, zero_mul, cos_zero, mul_one]
      exact exp_le_exp.2 (by nlinarith [cos_le_one t])
  rw [h] at lo hi
  simp only [intervalIntegral.integral_const, sub_zero, smul_eq_mul] at lo hi
  exact ⟨le_of_mul_le_mul_left lo pi_pos, le_of_mul_le_mul_left hi pi_pos⟩

/-- **C102.** For `kappa ≤ 1e-9` the sampler draws `2π u` with `u` uniform; the probability of `[0, x]` is then
`x / (2π)`, which differs from the integral of the density by less than `1e-8`. -/
theorem C102_vonmises_uniform {mu kappa x : ℝ} (hk0 : 0 ≤ kappa) (hk : kappa ≤ 1 / 10 ^ 9) (hx0 : 0 ≤ x) (hx1 : x ≤ 2 * π)
    (l : List (ℝ × ℝ × ℝ)) :
    unif.real {u | ∃ y, vmRvs mu kappa (2 * π * u) l = some y ∧ y ≤ x} = x / (2 * π) ∧
    |x / (2 * π) - ∫ t in (0 : ℝ)..x, vonMises mu kappa t| < 1 / 10 ^ 8 := by
  have h2 := two_pi_pos
  constructor
  · have e : {u | ∃ y, vmRvs mu kappa (2 * π * u) l = some y ∧ y ≤ x} = Set.Iic (x / (2 * π)) := by
      ext u
      unfold vmRvs
      simp only [hk, if_true, Set.mem_ofPred_eq, Option.some.injEq, exists_eq_left', Set.mem_Iic]
      rw [le_div_iff₀ h2, mul_comm]
    rw [e]
    rcases hx0.eq_or_lt with h | h
    · rw [← h, zero_div, measureReal_def]
      unfold unif
      rw [Measure.restrict_apply measurableSet_Iic, show Set.Iic 0 ∩ Set.Ico (0 : ℝ) 1 = {0} from ?_]
      · simp
      · ext u; simp only [Set.mem_inter_iff, Set.mem_Iic, Set.mem_Ico, Set.mem_singleton_iff]
        exact ⟨fun h => le_antisymm h.1 h.2.1, fun h => by rw [h]; norm_num⟩
    · rw [measureReal_def, unif_Iic (by positivity) ((div_le_one h2).2 hx1), ENNReal.toReal_ofReal (by positivity)]
  · obtain ⟨b1, b2⟩ := besselI_zero_range hk0
    have hI := besselI_zero_pos kappa
    have e1 : exp (2 * kappa) ≤ 1 + 4 * kappa := by
      have := abs_exp_sub_one_le (x := 2 * kappa) (by rw [abs_of_nonneg (by positivity)]; linarith)
      rw [abs_of_nonneg (by positivity : 0 ≤ 2 * kappa)] at this
      have := (abs_le.1 this).2
      linarith
    have e2 : 1 - 4 * kappa ≤ exp (-(2 * kappa)) := by have := add_one_le_exp (-(2 * kappa)); linarith
    have hv : ∀ t, |vonMises mu kappa t - 1 / (2 * π)| ≤ 4 * kappa / (2 * π) := by
      intro t
      unfold vonMises
      rw [show exp (kappa * cos (t - mu)) / (2 * π * besselI 0 kappa) - 1 / (2 * π)
        = (exp (kappa * cos (t - mu)) / besselI 0 kappa - 1) / (2 * π) by field_simp, abs_div, abs_of_pos h2]
      refine div_le_div_of_nonneg_right ?_ h2.le
      have c1 : exp (kappa * cos (t - mu)) ≤ exp kappa := exp_le_exp.2 (by nlinarith [cos_le_one (t - mu)])
      have c2 : exp (-kappa) ≤ exp (kappa * cos (t - mu)) := exp_le_exp.2 (by nlinarith [neg_one_le_cos (t - mu)])
      have m1 : exp (2 * kappa) * exp (-kappa) = exp kappa := by rw [← exp_add]; ring_nf
      have m2 : exp (-(2 * kappa)) * exp kappa = exp (-kappa) := by rw [← exp_add]; ring_nf
      rw [abs_le]
      constructor
      · rw [neg_le_sub_iff_le_add, ← sub_le_iff_le_add, le_div_iff₀ hI]
        calc (1 - 4 * kappa) * besselI 0 kappa ≤ exp (-(2 * kappa)) * besselI 0 kappa :=
              mul_le_mul_of_nonneg_right e2 hI.le
          _ ≤ exp (-(2 * kappa)) * exp kappa := mul_le_mul_of_nonneg_left b2 (exp_pos _).le
          _ ≤ _ := by rw [m2]; exact c2
      · rw [sub_le_iff_le_add', div_le_iff₀ hI]
        calc exp (kappa * cos (t - mu)) ≤ exp (2 * kappa) * exp (-kappa) := by rw [m1]; exact c1
          _ ≤ exp (2 * kappa) * besselI 0 kappa := mul_le_mul_of_nonneg_left b1 (exp_pos _).le
          _ ≤ _ := mul_le_mul_of_nonneg_right e1 hI.le
    have hcont : Continuous (vonMises mu kappa) := by unfold vonMises; fun_prop
    have h3 : x / (2 * π) - ∫ t in (0 : ℝ)..x, vonMises mu kappa t
        = -∫ t in (0 : ℝ)..x, (vonMises mu kappa t - 1 / (2 * π)) := by
      rw [intervalIntegral.integral_sub (hcont.intervalIntegrable _ _) (by simp)]
      simp only [intervalIntegral.integral_const, sub_zero, smul_eq_mul]
      ring
    rw [h3, abs_neg]
    have h4 := intervalIntegral.norm_integral_le_of_norm_le_const (a := 0) (b := x)
      (f := fun t => vonMises mu kappa t - 1 / (2 * π)) (fun t _ => hv t)
    rw [Real.norm_eq_abs, sub_zero, abs_of_nonneg hx0] at h4
    refine lt_of_le_of_lt h4 ?_
    calc 4 * kappa / (2 * π) * x ≤ 4 * kappa / (2 * π) * (2 * π) := mul_le_mul_of_nonneg_left hx1 (by positivity)
      _ = 4 * kappa := by field_simp
      _ < _ := by norm_num at hk ⊢; linarith

/-- C102 for `mu = 1`, `kappa = 2`. -/
example : ∃ A, (1 : ℝ) / 8 ≤ A ∧ ∀ n, (unifTrials n).real {t | ∃ y, vmRvs 1 2 0 (List.ofFn t) = some y ∧ y ≤ π}
    = (1 - (1 - A) ^ n) * ∫ t in (0 : ℝ)..π, vonMises 1 2 t := by
  obtain ⟨A, h1, -, -, h2, -⟩ := C102_vonmises (mu := 1) (kappa := 2) (by norm_num) 0
  exact ⟨A, h1, fun n => h2 n π pi_pos.le (by linarith [pi_pos])⟩

end Verif
