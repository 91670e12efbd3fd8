import Verif.Props.DistCartwright
import Verif.Props.DistSimpleB
import Verif.Props.LikelihoodB
import Mathlib.MeasureTheory.Function.Floor

/-! # C83, C101, C102, C111: samples and fits of Cartwright's distribution -/

set_option autoImplicit false

namespace Verif

open Verif.Spec Real MeasureTheory ProbabilityTheory

/-! ## C102: samples -/

lemma measurable_pymod : Measurable fun y : ℝ => pymod y (2 * π) := by
  unfold pymod
  have h : Measurable fun y : ℝ => ((⌊y / (2 * π)⌋ : ℤ) : ℝ) :=
    (measurable_from_top (f := fun k : ℤ => (k : ℝ))).comp (Int.measurable_floor.comp (measurable_id.div_const _))
  exact measurable_id.sub (measurable_const.mul h)

lemma cw_lint {p : ℝ} (hp : 0 < p) (S : Set ℝ) (hS : MeasurableSet S) :
    (∫⁻ t in S ∩ Set.Ioo 0 π, ENNReal.ofReal (2 * cwG p t)).toReal
      = 2 * ∫ t in (0 : ℝ)..π, S.indicator (cwG p) t := by
  have h0 : ∀ t, 0 ≤ 2 * cwG p t := fun t => mul_nonneg two_pos.le (cwG_nonneg hp t)
  rw [← integral_eq_lintegral_of_nonneg_ae (Filter.Eventually.of_forall h0)
    (continuous_const.mul (cwG_continuous hp)).aestronglyMeasurable, integral_const_mul,
    intervalIntegral.integral_of_le pi_pos.le, integral_indicator hS, Measure.restrict_restrict hS]
  congr 2
  exact Measure.restrict_congr_set (Filter.EventuallyEq.inter (Filter.EventuallyEq.refl _ _) Ioo_ae_eq_Ioc)

/-- The indicator of the samples up to `x`, times the kernel, as a function of the deviation from the direction. -/
noncomputable def cwInd (p m x : ℝ) : ℝ → ℝ := Set.indicator {y | pymod (m + y) (2 * π) ≤ x} (cwG p)

lemma cwInd_meas (m x : ℝ) : MeasurableSet {y : ℝ | pymod (m + y) (2 * π) ≤ x} :=
  (measurable_pymod.comp (measurable_const.add measurable_id)) measurableSet_Iic

lemma cwInd_integrable {p : ℝ} (hp : 0 < p) (m x a b : ℝ) : IntervalIntegrable (cwInd p m x) volume a b := by
  have h := (cwG_continuous hp).intervalIntegrable (μ := volume) a b
  exact ⟨h.1.indicator (cwInd_meas m x), h.2.indicator (cwInd_meas m x)⟩

lemma cwInd_periodic (p m x : ℝ) : Function.Periodic (cwInd p m x) (2 * π) := by
  intro y
  unfold cwInd Set.indicator
  have e : pymod (m + (y + 2 * π)) (2 * π) = pymod (m + y) (2 * π) :=
    pymod_congr two_pi_pos ⟨1, by push_cast; ring⟩
  simp only [Set.mem_ofPred_eq, e, cwG_periodic p y]

lemma cwInd_integral {p m x : ℝ} (hp : 0 < p) (hx0 : 0 ≤ x) (hx1 : x ≤ 2 * π) :
    ∫ y in (-π)..π, cwInd p m x y = ∫ t in (0 : ℝ)..x, cwG p (t - m) := by
  have h1 : ∫ y in (-π)..π, cwInd p m x y = ∫ t in (0 : ℝ)..(2 * π), cwInd p m x (t - m) := by
    rw [intervalIntegral.integral_comp_sub_right (fun y => cwInd p m x y) m, zero_sub,
      show 2 * π - m = -m + 2 * π by ring, (cwInd_periodic p m x).intervalIntegral_add_eq (-m) (-π)]
    congr 1; ring
  have hi : ∀ a b, IntervalIntegrable (fun t => cwInd p m x (t - m)) volume a b := fun a b => by
    simpa using (cwInd_integrable hp m x (a - m) (b - m)).comp_sub_right m
  rw [h1, ← intervalIntegral.integral_add_adjacent_intervals (hi 0 x) (hi x (2 * π))]
  have e : ∀ t, cwInd p m x (t - m) = if pymod t (2 * π) ≤ x then cwG p (t - m) else 0 := by
    intro t
    unfold cwInd Set.indicator
    simp only [Set.mem_ofPred_eq, show m + (t - m) = t by ring]
  have h2 : ∫ t in (0 : ℝ)..x, cwInd p m x (t - m) = ∫ t in (0 : ℝ)..x, cwG p (t - m) := by
    rw [intervalIntegral.integral_of_le hx0, intervalIntegral.integral_of_le hx0, integral_Ioc_eq_integral_Ioo,
      integral_Ioc_eq_integral_Ioo]
    refine setIntegral_congr_fun measurableSet_Ioo fun t ht => ?_
    show cwInd p m x (t - m) = _
    rw [e, if_pos]
    rw [pymod_eq_self two_pi_pos ht.1.le (by linarith [ht.2])]
    exact ht.2.le
  have h3 : ∫ t in x..(2 * π), cwInd p m x (t - m) = 0 := by
    rw [intervalIntegral.integral_of_le hx1, integral_Ioc_eq_integral_Ioo]
    refine setIntegral_eq_zero_of_forall_eq_zero fun t ht => ?_
    rw [e, if_neg]
    rw [pymod_eq_self two_pi_pos (by linarith [ht.1]) ht.2, not_le]
    exact ht.1
  rw [h2, h3, add_zero]

lemma cwSample_angle {t : ℝ} (ht : t ∈ Set.Ioo 0 π) : 2 * arcsin (clip √(sin (1 / 2 * t) ^ 2) 0 1) = t := by
  obtain ⟨a, _, c⟩ := half_mem ht
  rw [sqrt_sq a.le, clip01 a.le c.le]
  have := cwAngle_eq ht.1.le ht.2.le
  rwa [sqrt_sq a.le] at this

lemma measurable_cwAngle : Measurable fun t : ℝ => 2 * arcsin (clip √t 0 1) := by
  unfold clip
  have h : Continuous fun t : ℝ => 2 * arcsin (min (max √t 0) 1) :=
    continuous_const.mul (continuous_arcsin.comp ((continuous_sqrt.max continuous_const).min continuous_const))
  exact h.measurable

/-- **C102.** Samples of Cartwright's distribution: if `t` is drawn from the beta distribution with parameters `1/2` and
`1/zeta + 1/2` and `u` uniformly from `[0, 1)`, the probability that the sample is at most `x` is the integral of the
density from 0 to `x`; every sample lies in `[0, 2π)`. -/
theorem C102_cartwright {mu zeta x : ℝ} (hz : 0 < zeta) (hx0 : 0 ≤ x) (hx1 : x ≤ 2 * π) :
    (∀ t u, ∃ v, cwRvs t u mu zeta = .ok v ∧ 0 ≤ v ∧ v < 2 * π) ∧
    ((betaMeasure (1 / 2) (1 / zeta + 1 / 2)).prod (volume.restrict (Set.Ico 0 1))).real
      {p : ℝ × ℝ | ∃ v, cwRvs p.1 p.2 mu zeta = .ok v ∧ v ≤ x} = ∫ t in (0 : ℝ)..x, cartwrightDensity mu zeta t := by
  have hp : 0 < 1 / zeta := by positivity
  have hval : ∀ t u, cwRvs t u mu zeta = .ok (pymod (pymod mu (2 * π)
      + (if u < 1 / 2 then (-1 : ℝ) else 1) * (2 * arcsin (clip √t 0 1))) (2 * π)) := fun t u => by
    unfold cwRvs
    rw [if_neg (not_le.mpr hz)]
  refine ⟨fun t u => ⟨_, hval t u, pymod_nonneg two_pi_pos _, pymod_lt two_pi_pos _⟩, ?_⟩
  obtain ⟨m, hm⟩ : ∃ m, m = pymod mu (2 * π) := ⟨_, rfl⟩
  rw [← hm] at hval
  have := isProbabilityMeasureBeta (by norm_num : (0 : ℝ) < 1 / 2) (by linarith : 0 < 1 / zeta + 1 / 2)
  obtain ⟨β, hβ⟩ : ∃ β, β = betaMeasure (1 / 2) (1 / zeta + 1 / 2) := ⟨_, rfl⟩
  rw [← hβ] at this ⊢
  have hset : {p : ℝ × ℝ | ∃ v, cwRvs p.1 p.2 mu zeta = .ok v ∧ v ≤ x}
      = {t | pymod (m + -(2 * arcsin (clip √t 0 1))) (2 * π) ≤ x} ×ˢ Set.Iio (1 / 2)
        ∪ {t | pymod (m + 2 * arcsin (clip √t 0 1)) (2 * π) ≤ x} ×ˢ Set.Ici (1 / 2) := by
    ext ⟨t, u⟩
    simp only [Set.mem_ofPred_eq, hval, Set.mem_union, Set.mem_prod, Set.mem_Iio, Set.mem_Ici, Except.ok.injEq,
      exists_eq_left']
    by_cases h : u < 1 / 2
    · rw [if_pos h, neg_one_mul]
      exact ⟨fun a => Or.inl ⟨a, h⟩, fun a => a.elim And.left fun b => absurd b.2 (not_le.mpr h)⟩
    · rw [if_neg h, one_mul]
      exact ⟨fun a => Or.inr ⟨a, not_lt.mp h⟩, fun a => a.elim (fun b => absurd b.2 h) And.left⟩
  have m1 : MeasurableSet {t : ℝ | pymod (m + -(2 * arcsin (clip √t 0 1))) (2 * π) ≤ x} :=
    (measurable_pymod.comp (measurable_const.add measurable_cwAngle.neg)) measurableSet_Iic
  have m2 : MeasurableSet {t : ℝ | pymod (m + 2 * arcsin (clip √t 0 1)) (2 * π) ≤ x} :=
    (measurable_pymod.comp (measurable_const.add measurable_cwAngle)) measurableSet_Iic
  have s1 : MeasurableSet {y : ℝ | pymod (m + -y) (2 * π) ≤ x} :=
    (measurable_pymod.comp (measurable_const.add measurable_id.neg)) measurableSet_Iic
  have v1 : (volume.restrict (Set.Ico (0 : ℝ) 1)).real (Set.Iio (1 / 2)) = 1 / 2 := by
    rw [measureReal_def, Measure.restrict_apply measurableSet_Iio,
      show Set.Iio (1 / 2) ∩ Set.Ico (0 : ℝ) 1 = Set.Ico 0 (1 / 2) from ?_]
    · simp
    · ext u; simp only [Set.mem_inter_iff, Set.mem_Iio, Set.mem_Ico]
      exact ⟨fun h => ⟨h.2.1, h.1⟩, fun h => ⟨h.2, h.1, by linarith [h.2]⟩⟩
  have v2 : (volume.restrict (Set.Ico (0 : ℝ) 1)).real (Set.Ici (1 / 2)) = 1 / 2 := by
    rw [measureReal_def, Measure.restrict_apply measurableSet_Ici,
      show Set.Ici (1 / 2) ∩ Set.Ico (0 : ℝ) 1 = Set.Ico (1 / 2) 1 from ?_]
    · simp; norm_num
    · ext u; simp only [Set.mem_inter_iff, Set.mem_Ici, Set.mem_Ico]
      exact ⟨fun h => ⟨h.1, h.2.2⟩, fun h => ⟨h.1, by linarith [h.1], h.2⟩⟩
  have b1 : β.real {t | pymod (m + -(2 * arcsin (clip √t 0 1))) (2 * π) ≤ x}
      = 2 * ∫ t in (-π)..(0 : ℝ), cwInd (1 / zeta) m x t := by
    rw [measureReal_def, hβ, cwMeasure hp _ {y : ℝ | pymod (m + -y) (2 * π) ≤ x} m1 s1 (fun t ht => by
      simp only [Set.mem_ofPred_eq, cwSample_angle ht]), cw_lint hp _ s1]
    congr 1
    have := intervalIntegral.integral_comp_neg (fun t => cwInd (1 / zeta) m x t) (a := (0 : ℝ)) (b := π)
    rw [neg_zero] at this
    rw [← this]
    refine intervalIntegral.integral_congr fun t _ => ?_
    show Set.indicator _ _ t = cwInd (1 / zeta) m x (-t)
    unfold cwInd Set.indicator
    simp only [Set.mem_ofPred_eq, cwG_neg]
  have b2 : β.real {t | pymod (m + 2 * arcsin (clip √t 0 1)) (2 * π) ≤ x}
      = 2 * ∫ t in (0 : ℝ)..π, cwInd (1 / zeta) m x t := by
    rw [measureReal_def, hβ, cwMeasure hp _ {y : ℝ | pymod (m + y) (2 * π) ≤ x} m2 (cwInd_meas m x) (fun t ht => by
      simp only [Set.mem_ofPred_eq, cwSample_angle ht]), cw_lint hp _ (cwInd_meas m x)]
    rfl
  have hdisj : Disjoint ({t : ℝ | pymod (m + -(2 * arcsin (clip √t 0 1))) (2 * π) ≤ x} ×ˢ Set.Iio (1 / 2 : ℝ))
      ({t : ℝ | pymod (m + 2 * arcsin (clip √t 0 1)) (2 * π) ≤ x} ×ˢ Set.Ici (1 / 2 : ℝ)) := by
    rw [Set.disjoint_left]
    rintro ⟨t, u⟩ h1 h2
    exact not_lt.mpr (show (1 / 2 : ℝ) ≤ u from h2.2) h1.2
  have hi := cwInd_integrable hp m x
  rw [hset, measureReal_union hdisj (m2.prod measurableSet_Ici), measureReal_prod_prod, measureReal_prod_prod, v1, v2, b1, b2]
  have hsum := intervalIntegral.integral_add_adjacent_intervals (hi (-π) 0) (hi 0 π)
  rw [cwInd_integral hp hx0 hx1] at hsum
  rw [show (2 * ∫ t in (-π)..(0 : ℝ), cwInd (1 / zeta) m x t) * (1 / 2) + (2 * ∫ t in (0 : ℝ)..π, cwInd (1 / zeta) m x t) * (1 / 2)
    = (∫ t in (-π)..(0 : ℝ), cwInd (1 / zeta) m x t) + ∫ t in (0 : ℝ)..π, cwInd (1 / zeta) m x t by ring, hsum]
  refine intervalIntegral.integral_congr fun t _ => ?_
  show cwG (1 / zeta) (t - m) = cartwrightDensity mu zeta t
  rw [← cwPdf_density hz, cwPdf_eq]
  obtain ⟨k, hk⟩ := pymod_form mu
  rw [hm, hk, show t - (mu + k * (2 * π)) = t - mu - k * (2 * π) by ring]
  exact (cwG_periodic (1 / zeta)).sub_int_mul_eq k

/-! ## C83 -/

/-- **C83.** Every estimate of `cartwright.fit`, whatever the optimiser returns, is accepted by the distribution itself. -/
theorem C83_cartwright (binv : ℝ → ℝ → ℝ → ℝ)
    (minimize : (ℝ → ℝ → Option ℝ) → (ℝ → ℝ → ℝ × ℝ) → ℝ × ℝ → MinResult 2)
    (data : List ℝ) (weights : Option (List ℝ)) (method : String) (s : ℝ × ℝ)
    (h : cwFit minimize data weights method = .ok s) : (cartwright binv).argcheck s := by
  unfold cwFit at h
  simp only at h
  have hzm : ∀ m, 0 < cwZetaMom m := by
    intro m
    unfold cwZetaMom
    simp only
    split_ifs
    · norm_num
    · exact lt_of_lt_of_le (by norm_num) (clip_mem (by norm_num)).1
  rcases hw : fitWeights (data.map wrap2pi).length weights with e | w
  · rw [hw] at h
    split_ifs at h <;> cases h
  · rw [hw] at h
    simp only [bind, Except.bind] at h
    split_ifs at h <;> cases h <;> first
      | exact ⟨wrap2pi_mem _, hzm _⟩
      | exact ⟨wrap2pi_mem _, lt_of_lt_of_le (by norm_num) (clip_mem (by norm_num)).1⟩

/-! ## C101 -/

lemma cwPdf_log {zeta : ℝ} (hz : 0 < zeta) {x mu : ℝ} (h : 0 < 1 + cos (x - mu)) :
    log (cwPdf x mu zeta) = cwLogC zeta + 1 / zeta * log (1 + cos (x - mu)) := by
  have hp : 0 < 1 / zeta := by positivity
  have g1 := Gamma_pos_of_pos (by linarith : 0 < 1 + 1 / zeta)
  have g2 := Gamma_pos_of_pos (by linarith : 0 < 1 + 2 * (1 / zeta))
  have hr := rpow_pos_of_pos h (1 / zeta)
  have h2 : 0 < (2 : ℝ) ^ (-1 + 1 / zeta) := rpow_pos_of_pos two_pos _
  unfold cwPdf cwLogC gammaln
  rw [show 2 / zeta = 2 * (1 / zeta) by ring, log_div (by positivity) (by positivity), log_mul (by positivity) hr.ne',
    log_mul h2.ne' (by positivity), log_pow, log_mul pi_pos.ne' g2.ne', log_rpow two_pos, log_rpow h]
  push_cast
  ring

/-- **C101.** The objective of `cartwright.fit` is the weighted negative log-likelihood of the distribution's own density,
unless an observation lies (almost) opposite to the direction. -/
theorem C101_cartwright_objective (binv : ℝ → ℝ → ℝ → ℝ) {x w : List ℝ} {mu zeta : ℝ} (hl : x.length = w.length)
    (hz : 0 < zeta) (hx : ∀ xi ∈ x, 1 / 10 ^ 15 ≤ 1 + cos (xi - mu)) :
    cwNll x w mu zeta
      = some (-(List.zipWith (fun xi wi => wi * log ((cartwright binv).pdf xi (mu, zeta))) x w).sum) := by
  unfold cwNll
  rw [if_neg (not_le.mpr hz)]
  congr 2
  have e : (List.zipWith (fun xi wi => wi * log ((cartwright binv).pdf xi (mu, zeta))) x w).sum
      = (List.zipWith (fun xi wi => wi * (1 / zeta * log (max (1 + cos (xi - mu)) (1 / 10 ^ 15)) - -(cwLogC zeta))) x w).sum := by
    refine zipWith_sum_congr fun xi hxi wi _ => ?_
    have h := hx xi hxi
    have hpos : 0 < 1 + cos (xi - mu) := lt_of_lt_of_le (by norm_num) h
    show wi * log (cwPdf xi mu zeta) = _
    rw [cwPdf_log hz hpos, max_eq_left h]
    ring
  rw [e, zipWith_sum_sub hl, zipWith_sum_mul]
  have e2 : (List.zipWith (fun xi wi => 1 / zeta * (wi * log (max (1 + cos (xi - mu)) (1 / 10 ^ 15)))) x w).sum
      = (List.zipWith (fun xi wi => wi * (1 / zeta * log (max (1 + cos (xi - mu)) (1 / 10 ^ 15)))) x w).sum :=
    zipWith_sum_congr fun xi _ wi _ => by ring
  rw [e2]
  ring

/-- **C101 (negative).** Opposite to the direction the density is 0, so the likelihood is 0; the objective stays finite. -/
theorem C101_cartwright_antipode (binv : ℝ → ℝ → ℝ → ℝ) {zeta : ℝ} (hz : 0 < zeta) :
    (cartwright binv).pdf π (0, zeta) = 0 ∧ ∃ v, cwNll [π] [1] 0 zeta = some v := by
  refine ⟨?_, _, if_neg (not_le.mpr hz)⟩
  show cwPdf π 0 zeta = 0
  unfold cwPdf
  rw [sub_zero, cos_pi, add_neg_cancel, zero_rpow (by positivity)]
  simp

lemma hasDerivAt_gammaln {y : ℝ} (hy : 0 < y) : HasDerivAt gammaln (digamma y) y := by
  unfold digamma
  have h : DifferentiableAt ℝ gammaln y := by
    unfold gammaln
    exact (differentiableAt_Gamma fun m => by
      have : (0 : ℝ) ≤ m := Nat.cast_nonneg m
      linarith).log (Gamma_pos_of_pos hy).ne'
  exact h.hasDerivAt

/-- **C101.** The gradient handed to the optimiser by `cartwright.fit` is the gradient of the objective handed to it, unless
an observation lies (almost) opposite to the direction. -/
theorem C101_cartwright_gradient {x w : List ℝ} {mu zeta : ℝ} (hz : 0 < zeta)
    (hx : ∀ xi ∈ x, 1 / 10 ^ 15 < 1 + cos (xi - mu)) :
    (∃ f : ℝ → ℝ, (∀ m, cwNll x w m zeta = some (f m)) ∧ HasDerivAt f (cwGrad x w mu zeta).1 mu) ∧
    (∃ f : ℝ → ℝ, (∀ z, 0 < z → cwNll x w mu z = some (f z)) ∧ HasDerivAt f (cwGrad x w mu zeta).2 zeta) := by
  refine ⟨⟨_, fun m => if_neg (not_le.mpr hz), ?_⟩, ⟨_, fun z h => if_neg (not_le.mpr h), ?_⟩⟩
  · have hd := hasDerivAt_zipWith_sum (x := x) (w := w) (a := mu)
      (g := fun m xi wi => wi * log (max (1 + cos (xi - m)) (1 / 10 ^ 15)))
      (g' := fun xi wi => wi * sin (xi - mu) / max (1 + cos (xi - mu)) (1 / 10 ^ 15))
      (fun xi hxi wi _ => by
        have h := hx xi hxi
        have hpos : 0 < 1 + cos (xi - mu) := lt_trans (by norm_num) h
        have h2 : HasDerivAt (fun m : ℝ => 1 + cos (xi - m)) (-sin (xi - mu) * -1) mu :=
          (((hasDerivAt_id mu).const_sub xi).cos).const_add 1
        have h3 := (h2.log hpos.ne').const_mul wi
        have hc : ContinuousAt (fun m : ℝ => 1 + cos (xi - m)) mu := h2.continuousAt
        have hev : (fun m => wi * log (max (1 + cos (xi - m)) (1 / 10 ^ 15)))
            =ᶠ[nhds mu] fun m => wi * log (1 + cos (xi - m)) := by
          filter_upwards [hc.eventually (lt_mem_nhds h)] with m hm
          rw [max_eq_left hm.le]
        refine (h3.congr_of_eventuallyEq hev).congr_deriv ?_
        rw [max_eq_left h.le]
        ring)
    refine ((hd.const_mul (1 / zeta)).const_add (w.sum * cwLogC zeta)).neg.congr_deriv ?_
    unfold cwGrad
    simp only
    ring
  · have hne := hz.ne'
    have hp : 0 < 1 / zeta := by positivity
    have hinv : HasDerivAt (fun z : ℝ => 1 / z) (-(1 / zeta ^ 2)) zeta := by
      simpa [one_div] using hasDerivAt_inv hne
    have g1 : HasDerivAt (fun z : ℝ => gammaln (1 + 1 / z)) (digamma (1 + 1 / zeta) * -(1 / zeta ^ 2)) zeta :=
      HasDerivAt.comp (h₂ := gammaln) (h := fun z : ℝ => 1 + 1 / z) zeta (hasDerivAt_gammaln (by linarith)) (hinv.const_add 1)
    have g2 : HasDerivAt (fun z : ℝ => gammaln (1 + 2 * (1 / z))) (digamma (1 + 2 * (1 / zeta)) * (2 * -(1 / zeta ^ 2))) zeta :=
      HasDerivAt.comp (h₂ := gammaln) (h := fun z : ℝ => 1 + 2 * (1 / z)) zeta
        (hasDerivAt_gammaln (by linarith)) ((hinv.const_mul 2).const_add 1)
    have hlc : HasDerivAt cwLogC (-(1 / zeta ^ 2) * log 2 + 2 * (digamma (1 + 1 / zeta) * -(1 / zeta ^ 2))
        - digamma (1 + 2 * (1 / zeta)) * (2 * -(1 / zeta ^ 2))) zeta := by
      have := ((((hinv.const_add (-1)).mul_const (log 2)).add (g1.const_mul 2)).sub_const (log π)).sub g2
      exact this
    refine ((hlc.const_mul w.sum).add (hinv.mul_const _)).neg.congr_deriv ?_
    unfold cwGrad
    simp only
    field_simp
    ring

/-! ## C111: the moments fit -/

lemma cwMeanT_eq (x w : List ℝ) (hl : x.length = w.length) (hW : w.sum ≠ 0) (mu : ℝ) :
    cwMeanT x w mu = (1 - (Complex.exp ((-mu : ℝ) * Complex.I) * moment x w 1).re) / 2 := by
  have key : ∀ x w : List ℝ, x.length = w.length →
      (List.zipWith (fun xi wi => wi * sin (1 / 2 * (pymod (xi - mu + π) (2 * π) - π)) ^ 2) x w).sum
        = (w.sum - (Complex.exp ((-mu : ℝ) * Complex.I) * expSum x w 1).re) / 2 := by
    intro x
    induction x with
    | nil => intro w h; cases w with
      | nil => simp [expSum]
      | cons a w => simp at h
    | cons a x ih => intro w h; cases w with
      | nil => simp at h
      | cons b w =>
        simp only [List.zipWith_cons_cons, List.sum_cons, ih w (by simpa using h), expSum]
        have hs : sin (1 / 2 * (pymod (a - mu + π) (2 * π) - π)) ^ 2 = (1 - cos (a - mu)) / 2 := by
          rw [sin_sq, cos_sq, show 2 * (1 / 2 * (pymod (a - mu + π) (2 * π) - π)) = pymod (a - mu + π) (2 * π) - π by ring]
          obtain ⟨k, hk⟩ := pymod_form (a - mu + π)
          rw [hk, show a - mu + π + k * (2 * π) - π = a - mu + k * (2 * π) by ring, cos_add_int_mul_two_pi]
          ring
        have hr : (Complex.exp ((-mu : ℝ) * Complex.I) * ((b : ℂ) * Complex.exp ((((1 : ℤ) : ℝ) * a : ℝ) * Complex.I))).re
            = b * cos (a - mu) := by
          rw [show Complex.exp ((-mu : ℝ) * Complex.I) * ((b : ℂ) * Complex.exp ((((1 : ℤ) : ℝ) * a : ℝ) * Complex.I))
            = (b : ℂ) * Complex.exp (((a - mu : ℝ) : ℂ) * Complex.I) from ?_, Complex.re_ofReal_mul, Complex.exp_ofReal_mul_I_re]
          rw [mul_left_comm, ← Complex.exp_add]
          congr 2
          push_cast; ring
        rw [hs, mul_add, Complex.add_re, hr]
        ring
  unfold cwMeanT
  rw [key x w hl]
  unfold moment
  rw [← mul_div_assoc, Complex.div_ofReal_re]
  field_simp

lemma cwZetaMom_interior {m : ℝ} (h0 : 1 / 10 ^ 6 < cwZetaMom m) (h1 : cwZetaMom m < 10 ^ 6) :
    0 < m ∧ m < 1 / 2 - 1 / 10 ^ 12 ∧ cwZetaMom m = m / (1 / 2 - m) := by
  unfold cwZetaMom at h0 h1 ⊢
  simp only at h0 h1 ⊢
  by_cases h : clip m 0 (1 / 2 - 1 / 10 ^ 12) ≤ 1 / 10 ^ 12
  · rw [if_pos h] at h0; exact absurd h0 (lt_irrefl _)
  rw [if_neg h] at h0 h1 ⊢
  rw [not_le] at h
  have hm1 : m < 1 / 2 - 1 / 10 ^ 12 := by
    by_contra hc
    rw [not_lt] at hc
    have e : clip m 0 (1 / 2 - 1 / 10 ^ 12) = 1 / 2 - 1 / 10 ^ 12 := by
      unfold clip
      exact min_eq_right (hc.trans (le_max_left _ _))
    rw [e] at h1
    norm_num [clip] at h1
  have hm0 : 0 < m := by
    by_contra hc
    rw [not_lt] at hc
    have e : clip m 0 (1 / 2 - 1 / 10 ^ 12) = 0 := by
      unfold clip
      rw [max_eq_right hc, min_eq_left (by norm_num)]
    rw [e] at h
    norm_num at h
  have e : clip m 0 (1 / 2 - 1 / 10 ^ 12) = m := by
    unfold clip; rw [max_eq_left hm0.le, min_eq_left hm1.le]
  rw [e] at h0 h1 ⊢
  rw [max_eq_right (by linarith)] at h0 h1 ⊢
  refine ⟨hm0, hm1, ?_⟩
  unfold clip at h0 h1 ⊢
  rw [min_def] at h0 h1 ⊢
  split_ifs at h0 h1 ⊢ with hc
  · rcases le_total (m / (1 / 2 - m)) (1 / 10 ^ 6) with hd | hd
    · rw [max_eq_right hd] at h0; exact absurd h0 (lt_irrefl _)
    · exact max_eq_left hd
  · exact absurd h1 (lt_irrefl _)

lemma cartwright_first_moment {mu zeta : ℝ} (hz : 0 < zeta) :
    ∫ x in (0 : ℝ)..(2 * π), cos x * cartwrightDensity mu zeta x = 1 / (1 + zeta) * cos mu ∧
    ∫ x in (0 : ℝ)..(2 * π), sin x * cartwrightDensity mu zeta x = 1 / (1 + zeta) * sin mu := by
  have hp : 0 < 1 / zeta := by positivity
  have e : ∀ x, cartwrightDensity mu zeta x = cwG (1 / zeta) (x - mu) := fun x => by
    rw [← cwPdf_density hz, cwPdf_eq]
  have hc := cwG_continuous hp
  have i1 : IntervalIntegrable (fun t => cos t * cwG (1 / zeta) t) volume 0 (2 * π) :=
    (continuous_cos.mul hc).intervalIntegrable _ _
  have i2 : IntervalIntegrable (fun t => sin t * cwG (1 / zeta) t) volume 0 (2 * π) :=
    (continuous_sin.mul hc).intervalIntegrable _ _
  have hm : 1 / zeta / (1 + 1 / zeta) = 1 / (1 + zeta) := by field_simp; ring
  simp only [e]
  constructor
  · have := cw_shift (fun t => cos (t + mu) * cwG (1 / zeta) t)
      (fun t => by simp only; rw [cwG_periodic _ t, show t + 2 * π + mu = t + mu + 2 * π by ring, cos_add_two_pi]) mu
    simp only [sub_add_cancel] at this
    rw [this]
    have e2 : ∀ t, cos (t + mu) * cwG (1 / zeta) t
        = cos mu * (cos t * cwG (1 / zeta) t) - sin mu * (sin t * cwG (1 / zeta) t) := fun t => by rw [cos_add]; ring
    simp only [e2]
    rw [intervalIntegral.integral_sub (i1.const_mul _) (i2.const_mul _), intervalIntegral.integral_const_mul,
      intervalIntegral.integral_const_mul, cwG_cos hp, cwG_sin, hm]
    ring
  · have := cw_shift (fun t => sin (t + mu) * cwG (1 / zeta) t)
      (fun t => by simp only; rw [cwG_periodic _ t, show t + 2 * π + mu = t + mu + 2 * π by ring, sin_add_two_pi]) mu
    simp only [sub_add_cancel] at this
    rw [this]
    have e2 : ∀ t, sin (t + mu) * cwG (1 / zeta) t
        = cos mu * (sin t * cwG (1 / zeta) t) + sin mu * (cos t * cwG (1 / zeta) t) := fun t => by rw [sin_add]; ring
    simp only [e2]
    rw [intervalIntegral.integral_add (i2.const_mul _) (i1.const_mul _), intervalIntegral.integral_const_mul,
      intervalIntegral.integral_const_mul, cwG_cos hp, cwG_sin, hm]
    ring

/-- **C111.** The moments fit returns `zeta` between `1e-6` and `1e6`; unless it is one of these limits, the fitted
distribution has the first trigonometric moment of the sample (unless the direction was moved to `2π` because it was within
`1e-14` of it). -/
theorem C111_moments (minimize : (ℝ → ℝ → Option ℝ) → (ℝ → ℝ → ℝ × ℝ) → ℝ × ℝ → MinResult 2)
    (data : List ℝ) (hreg : ∀ x ∈ data, RegularAngle x) (weights : Option (List ℝ)) (mu zeta : ℝ)
    (h : cwFit minimize data weights "moments" = .ok (mu, zeta)) :
    1 / 10 ^ 6 ≤ zeta ∧ zeta ≤ 10 ^ 6 ∧
    (1 / 10 ^ 6 < zeta → zeta < 10 ^ 6 → mu ≠ 2 * π →
      ∫ x in (0 : ℝ)..(2 * π), cos x * cartwrightDensity mu zeta x = (moment data (fullWeights data.length weights) 1).re ∧
      ∫ x in (0 : ℝ)..(2 * π), sin x * cartwrightDensity mu zeta x = (moment data (fullWeights data.length weights) 1).im) := by
  rcases hw : fitWeights data.length weights with e | w
  · unfold cwFit at h
    simp only [map_wrap_regular hreg, hw, bind, Except.bind] at h
    split_ifs at h
  obtain ⟨hl, hwn, hW⟩ := fitWeights_ok hw
  have hgw : fullWeights data.length weights = w := fitWeights_full hw
  rw [hgw]
  unfold cwFit at h
  simp only [map_wrap_regular hreg, hw, bind, Except.bind] at h
  split_ifs at h with h1
  · simp only [Except.ok.injEq, Prod.mk.injEq] at h
    obtain ⟨rfl, rfl⟩ := h
    have hlim : ∀ m, 1 / 10 ^ 6 ≤ cwZetaMom m ∧ cwZetaMom m ≤ 10 ^ 6 := by
      intro m
      unfold cwZetaMom
      simp only
      split_ifs
      · norm_num
      · exact clip_mem (by norm_num)
    refine ⟨(hlim _).1, (hlim _).2, fun z0 z1 hmu => ?_⟩
    obtain ⟨c0, c1, c2⟩ := cwZetaMom_interior z0 z1
    obtain ⟨r0, r1⟩ := fitStart_range data w
    have hdir : wrapDirection (fitStart data w).1 = (fitStart data w).1 := by
      rw [far_of_ne hmu, pymod_eq_self two_pi_pos r0 r1]
    rw [hdir]
    obtain ⟨m0, hm0⟩ : ∃ m0, m0 = (fitStart data w).1 := ⟨_, rfl⟩
    rw [← hm0] at c0 c1 c2 z0 ⊢
    have hstart : m0 = if ‖moment data w 1‖ ≤ 1 / 10 ^ 12 then 0 else angmod2pi (Complex.arg (moment data w 1)) := by
      rw [hm0]
      unfold fitStart
      rw [circMeanAndR_eq, if_neg hW.ne']
      by_cases c : ‖moment data w 1‖ ≤ 1 / 10 ^ 12
      · rw [if_pos c, if_pos c]
        exact pymod_eq_self two_pi_pos le_rfl two_pi_pos
      · rw [if_neg c, if_neg c]
        exact pymod_eq_self two_pi_pos (angmod2pi_nonneg _) (angmod2pi_lt _)
    rw [cwMeanT_eq data w hl.symm hW.ne'] at c0 c1 c2
    obtain ⟨z, hz⟩ : ∃ z, z = moment data w 1 := ⟨_, rfl⟩
    rw [← hz] at hstart c0 c1 c2 ⊢
    by_cases c : ‖z‖ ≤ 1 / 10 ^ 12
    · rw [if_pos c] at hstart
      rw [hstart] at c1
      simp only [neg_zero, Complex.ofReal_zero, zero_mul, Complex.exp_zero, one_mul] at c1
      have := (Complex.re_le_norm z).trans c
      norm_num at this c1
      linarith
    · rw [if_neg c] at hstart
      have hpol := polar_angmod z
      rw [← hstart] at hpol
      have hre : (Complex.exp ((-m0 : ℝ) * Complex.I) * z).re = ‖z‖ := by
        conv_lhs => rw [hpol]
        rw [mul_left_comm, ← Complex.exp_add, show ((-m0 : ℝ) : ℂ) * Complex.I + (m0 : ℝ) * Complex.I = 0 by push_cast; ring,
          Complex.exp_zero, mul_one, Complex.ofReal_re]
      rw [hre] at c2
      have hpos : 0 < ‖z‖ := lt_trans (by norm_num) (not_le.mp c)
      have hR : 1 / (1 + cwZetaMom (cwMeanT data w m0)) = ‖z‖ := by
        rw [cwMeanT_eq data w hl.symm hW.ne', ← hz, hre, c2, show 1 / 2 - (1 - ‖z‖) / 2 = ‖z‖ / 2 by ring,
          div_div_div_cancel_right₀ two_ne_zero, show 1 + (1 - ‖z‖) / ‖z‖ = 1 / ‖z‖ by field_simp; ring, one_div_one_div]
      obtain ⟨a, b⟩ := cartwright_first_moment (mu := m0) (zeta := cwZetaMom (cwMeanT data w m0)) (lt_trans (by norm_num) z0)
      rw [a, b, hR]
      constructor
      · conv_rhs => rw [hpol]
        rw [Complex.re_ofReal_mul, Complex.exp_ofReal_mul_I_re]
      · conv_rhs => rw [hpol]
        rw [Complex.im_ofReal_mul, Complex.exp_ofReal_mul_I_im]

/-! ## C111: overflow -/

/-- **C111 (negative).** For `zeta ≤ 2/171` the gamma function in the denominator overflows, and the computed density is
0 or `nan` at every angle; the moments fit returns such values, for instance for a single observation. -/
theorem C111_overflow :
    (∀ x mu zeta : ℝ, 0 < zeta → zeta ≤ 2 / 171 → cwPdfFloat x mu zeta = .fin 0 ∨ cwPdfFloat x mu zeta = .nan) ∧
    ∀ minimize, cwFit minimize [0] none "moments" = .ok (0, 1 / 10 ^ 6) := by
  constructor
  · intro x mu zeta h0 h1
    have hmax : floatMax < Gamma (1 + 2 / zeta) := by
      have h2 : (171 : ℝ) ≤ 2 / zeta := by rw [le_div_iff₀ h0]; linarith
      have hg : Gamma ((171 : ℕ) + 1) ≤ Gamma (1 + 2 / zeta) :=
        Gamma_strictMonoOn_Ici.monotoneOn (by simp; norm_num) (by simp; linarith) (by push_cast; linarith)
      refine lt_of_lt_of_le ?_ hg
      rw [Gamma_nat_eq_factorial]
      have hf : floatMax < 2 ^ 1024 := by
        unfold floatMax
        rw [show (2 : ℝ) ^ 1024 = 2 * 2 ^ 1023 by rw [← pow_succ']]
        have : (0 : ℝ) < 2 ^ 1023 := by positivity
        have h52 : (0 : ℝ) < 1 / 2 ^ 52 := by positivity
        exact mul_lt_mul_of_pos_right (by linarith) this
      refine lt_of_lt_of_le hf ?_
      have : 2 ^ 1024 ≤ Nat.factorial 171 := by decide +kernel
      exact_mod_cast this
    have hd : (toFloat π).mul (toFloat (Gamma (1 + 2 / zeta))) = .inf := by
      have e : toFloat (Gamma (1 + 2 / zeta)) = .inf := if_neg (not_le.mpr hmax)
      have e' : toFloat π = .fin π := by
        refine if_pos ?_
        unfold floatMax
        have h1 : (1 : ℝ) ≤ 2 - 1 / 2 ^ 52 := by norm_num
        have h2 : (2 : ℝ) ^ 2 ≤ 2 ^ 1023 := pow_le_pow_right₀ (by norm_num) (by norm_num)
        have h3 : (1 : ℝ) * 2 ^ 1023 ≤ (2 - 1 / 2 ^ 52) * 2 ^ 1023 := mul_le_mul_of_nonneg_right h1 (by positivity)
        rw [one_mul] at h3
        refine le_trans ?_ (h2.trans h3)
        linarith [pi_lt_d2]
      rw [e, e']
      show (if π = 0 then FloatVal.nan else .inf) = _
      rw [if_neg pi_pos.ne']
    unfold cwPdfFloat
    simp only
    rw [hd]
    generalize FloatVal.mul _ _ = n
    cases n
    · exact Or.inl rfl
    · exact Or.inr rfl
    · exact Or.inr rfl
  · intro minimize
    have hmom : moment [0] [1] 1 = 1 := by simp [moment, expSum]
    have hst : fitStart [0] [1] = (0, 1) := by
      unfold fitStart
      rw [circMeanAndR_eq, hmom, if_neg (by simp), if_neg (by simp; norm_num)]
      simp only [Complex.arg_one, Option.getD_some, norm_one]
      have h0 : angmod2pi 0 = 0 := angmod2pi_eq_self le_rfl two_pi_pos
      rw [h0, pymod_eq_self two_pi_pos le_rfl two_pi_pos]
    have hT : cwMeanT [0] [1] 0 = 0 := by
      rw [cwMeanT_eq [(0 : ℝ)] [(1 : ℝ)] (by simp) (by simp), hmom]; simp
    have hz : cwZetaMom 0 = 1 / 10 ^ 6 := by
      unfold cwZetaMom
      simp only
      rw [show clip 0 0 (1 / 2 - 1 / 10 ^ 12) = (0 : ℝ) by
        unfold clip; rw [max_self, min_eq_left (by norm_num)], if_pos (by positivity)]
    unfold cwFit
    simp only [List.map_cons, List.map_nil, wrap2pi_zero, List.length_cons, List.length_nil, fitWeights, bind, Except.bind]
    simp [hst, hT, hz, wrapDirection, wrap2pi_zero]

/-! ## C109 -/

lemma zipWith_sum_le {f g : ℝ → ℝ → ℝ} : ∀ {x w : List ℝ}, (∀ xi ∈ x, ∀ wi ∈ w, f xi wi ≤ g xi wi) →
    (List.zipWith f x w).sum ≤ (List.zipWith g x w).sum
  | [], _, _ => by simp
  | _ :: _, [], _ => by simp
  | a :: x, b :: w, h => by
    simp only [List.zipWith_cons_cons, List.sum_cons]
    exact add_le_add (h a (by simp) b (by simp))
      (zipWith_sum_le fun xi hx wi hw => h xi (List.mem_cons_of_mem _ hx) wi (List.mem_cons_of_mem _ hw))

/-- **C109.** Cartwright's distribution: if a successful optimiser returns a minimum, within the bounds, of the objective it
is given, the estimate of `fit(method="mle")` maximises the weighted likelihood of `pdf` within the bounds, unless an
observation lies (almost) opposite to the estimated direction. -/
theorem C109_cartwright (binv : ℝ → ℝ → ℝ → ℝ)
    (minimize : (ℝ → ℝ → Option ℝ) → (ℝ → ℝ → ℝ × ℝ) → ℝ × ℝ → MinResult 2)
    (hmin : ∀ obj grad start, (minimize obj grad start).success →
      (0 ≤ (minimize obj grad start).x 0 ∧ (minimize obj grad start).x 0 ≤ 2 * π) ∧
      (1 / 10 ^ 6 ≤ (minimize obj grad start).x 1 ∧ (minimize obj grad start).x 1 ≤ 10 ^ 6) ∧
      ∀ a b u, 0 ≤ a → a ≤ 2 * π → 1 / 10 ^ 6 ≤ b → b ≤ 10 ^ 6 → obj a b = some u →
        ∃ v, obj ((minimize obj grad start).x 0) ((minimize obj grad start).x 1) = some v ∧ v ≤ u)
    (data : List ℝ) (hreg : ∀ x ∈ data, RegularAngle x) (weights : Option (List ℝ)) (mu zeta : ℝ)
    (h : cwFit minimize data weights "mle" = .ok (mu, zeta)) (hmu : mu ≠ 2 * π)
    (hopp : ∀ x ∈ data, 1 / 10 ^ 15 ≤ 1 + cos (x - mu)) :
    MaximisesLikelihood (distPdf (cartwright binv)) {s | (0 ≤ s.1 ∧ s.1 ≤ 2 * π) ∧ 1 / 10 ^ 6 ≤ s.2 ∧ s.2 ≤ 10 ^ 6}
      data (fullWeights data.length weights) (mu, zeta) := by
  have h6 : (0 : ℝ) < 1 / 10 ^ 6 := by positivity
  rcases hw : fitWeights data.length weights with e | w
  · unfold cwFit at h
    simp only [map_wrap_regular hreg, hw, bind, Except.bind] at h
    split_ifs at h
  obtain ⟨hl, hwn, hW⟩ := fitWeights_ok hw
  rw [fitWeights_full hw]
  unfold cwFit at h
  simp only [map_wrap_regular hreg, hw, bind, Except.bind] at h
  rw [if_neg (by intro h0; rw [if_pos h0] at h; cases h)] at h
  rw [if_neg (by simp), if_neg (by simp)] at h
  generalize hr : minimize _ _ _ = r at h
  split_ifs at h with c
  simp only [Except.ok.injEq, Prod.mk.injEq] at h
  obtain ⟨h1, h2⟩ := h
  have hm := hmin (cwNll data w) (cwGrad data w) _ (by rw [hr]; simpa using c)
  rw [hr] at hm
  obtain ⟨⟨b0, b1⟩, ⟨b2, b3⟩, hopt⟩ := hm
  have e1 : r.x 0 = mu := by
    rw [← h1] at hmu ⊢
    rw [far_of_ne hmu]
    refine (pymod_eq_self two_pi_pos b0 (lt_of_le_of_ne b1 fun e => hmu ?_)).symm
    rw [e]
    exact wrap2pi_close (by rw [sub_self, abs_zero]; exact wrapTol_pos.le)
  have e2 : r.x 1 = zeta := by
    rw [← h2]; unfold clip; rw [max_eq_left b2, min_eq_left b3]
  rw [e1] at b0 b1 hopt
  rw [e2] at b2 b3 hopt
  have hpdf : ∀ (m z : ℝ), 0 ≤ m → m ≤ 2 * π → 1 / 10 ^ 6 ≤ z → ∀ x ∈ data,
      distPdf (cartwright binv) x (m, z) = some (cwPdf x m z) := fun m z a b c x hx =>
    distPdf_regular (cartwright binv) (cw_arg binv a b (by linarith)) (hreg x hx)
  have hz : 0 < zeta := by linarith
  refine ⟨⟨⟨b0, b1⟩, b2, b3⟩, fun x hx => ⟨_, hpdf mu zeta b0 b1 b2 x hx, ?_⟩, ?_⟩
  · rw [cwPdf_eq]
    exact mul_pos (cwK_pos (by positivity)) (rpow_pos_of_pos (lt_of_lt_of_le (by norm_num) (hopp x hx)) _)
  · rintro ⟨m, z⟩ ⟨⟨a0, a1⟩, a2, a3⟩ hpos
    simp only at a0 a1 a2 a3
    have hz' : 0 < z := by linarith
    have hlik : ∀ (m z : ℝ), 0 ≤ m → m ≤ 2 * π → 1 / 10 ^ 6 ≤ z →
        logLik (fun y => distPdf (cartwright binv) y (m, z)) data w
          = (List.zipWith (fun xi wi => wi * log (cwPdf xi m z)) data w).sum := fun m z a b c =>
      zipWith_sum_congr fun xi hxi wi _ => by
        show wi * log ((distPdf (cartwright binv) xi (m, z)).getD 0) = _
        rw [hpdf m z a b c xi hxi]; rfl
    have hobj : ∀ xi ∈ data, ∀ wi, 0 ≤ wi → wi * log (cwPdf xi m z)
        ≤ wi * (1 / z * log (max (1 + cos (xi - m)) (1 / 10 ^ 15)) - -(cwLogC z)) := by
      intro xi hxi wi hwi
      refine mul_le_mul_of_nonneg_left ?_ hwi
      obtain ⟨v, hv, hv0⟩ := hpos xi hxi
      have hv' : some (cwPdf xi m z) = some v := (hpdf m z a0 a1 a2 xi hxi).symm.trans hv
      rw [Option.some.injEq] at hv'
      have hc : 0 < 1 + cos (xi - m) := by
        rcases (one_add_cos_nonneg (xi - m)).lt_or_eq with q | q
        · exact q
        · exfalso
          rw [← hv'] at hv0
          unfold cwPdf at hv0
          rw [← q, zero_rpow (by positivity)] at hv0
          simp at hv0
      rw [cwPdf_log hz' hc]
      have := log_le_log hc (le_max_left (1 + cos (xi - m)) (1 / 10 ^ 15))
      have := mul_le_mul_of_nonneg_left this (by positivity : 0 ≤ 1 / z)
      linarith
    obtain ⟨v, hv, hle⟩ := hopt m z _ a0 a1 a2 a3 (if_neg (not_le.mpr hz'))
    rw [C101_cartwright_objective binv hl.symm hz hopp] at hv
    simp only [Option.some.injEq] at hv
    rw [hlik m z a0 a1 a2, hlik mu zeta b0 b1 b2]
    have hs : (List.zipWith (fun xi wi => wi * log (cwPdf xi m z)) data w).sum
        ≤ (List.zipWith (fun xi wi => wi * (1 / z * log (max (1 + cos (xi - m)) (1 / 10 ^ 15)) - -(cwLogC z))) data w).sum :=
      zipWith_sum_le fun xi hxi wi hwi => hobj xi hxi wi (hwn wi hwi)
    rw [zipWith_sum_sub hl.symm] at hs
    have e2 : (List.zipWith (fun xi wi => 1 / z * (wi * log (max (1 + cos (xi - m)) (1 / 10 ^ 15)))) data w).sum
        = (List.zipWith (fun xi wi => wi * (1 / z * log (max (1 + cos (xi - m)) (1 / 10 ^ 15)))) data w).sum :=
      zipWith_sum_congr fun xi _ wi _ => by ring
    rw [← e2, ← zipWith_sum_mul] at hs
    have hv2 : -(List.zipWith (fun xi wi => wi * log (cwPdf xi mu zeta)) data w).sum = v := hv
    linarith

/-! ## Non-vacuity -/

/-- An exact inverse of the incomplete beta function exists. -/
theorem exists_invertsBeta {zeta : ℝ} (hz : 0 < zeta) : ∃ binv, InvertsBeta binv (1 / 2) (1 / zeta + 1 / 2) := by
  have hp : 0 < 1 / zeta := by positivity
  have key : ∀ u : ℝ, ∃ y : ℝ, 0 ≤ u → u ≤ 1 → 0 ≤ y ∧ y ≤ 1 ∧ (betaMeasure (1 / 2) (1 / zeta + 1 / 2)).real (Set.Iic y) = u := by
    intro u
    by_cases hu : 0 ≤ u ∧ u ≤ 1
    · have hivt := intermediate_value_Icc pi_pos.le (cwP_continuous hp).continuousOn
      rw [cwP_zero, cwP_pi hp] at hivt
      obtain ⟨phi, hphi, he⟩ := hivt (show u / 2 ∈ Set.Icc (0 : ℝ) (1 / 2) from ⟨by linarith, by linarith⟩)
      refine ⟨sin (1 / 2 * phi) ^ 2, fun _ _ => ⟨sq_nonneg _, sin_sq_le_one _, ?_⟩⟩
      have := betainc_sin hp hphi.1 hphi.2
      unfold betainc at this
      rw [this]
      unfold cwP at he
      linarith
    · exact ⟨0, fun a b => absurd ⟨a, b⟩ hu⟩
  choose y hy using key
  exact ⟨fun _ _ => y, fun u a b => hy u a b⟩

/-- C111: the median of the distribution with `mu = 1`, `zeta = 2`. -/
example : ∃ binv theta, distPpf (cartwright binv) (1 / 2) (1, 2) = some theta ∧
    ∫ t in (0 : ℝ)..theta, cartwrightDensity 1 2 t = 1 / 2 := by
  obtain ⟨binv, hb⟩ := exists_invertsBeta (zeta := 2) two_pos
  obtain ⟨theta, h1, _, _, h2⟩ := C111_ppf binv (mu := 1) (zeta := 2) (q := 1 / 2) (by norm_num) (by linarith [pi_gt_three])
    two_pos hb (by norm_num) (by norm_num)
  exact ⟨binv, theta, h1, h2⟩

/-- C111: the moments fit of the observations `0, π/2` is in the interior. -/
example (minimize : (ℝ → ℝ → Option ℝ) → (ℝ → ℝ → ℝ × ℝ) → ℝ × ℝ → MinResult 2) :
    ∃ mu zeta, cwFit minimize [0, π / 2] none "moments" = .ok (mu, zeta) ∧ 1 / 10 ^ 6 < zeta ∧ zeta < 10 ^ 6 := by
  have hpi := pi_gt_three
  have hreg : ∀ x ∈ [(0 : ℝ), π / 2], RegularAngle x := by
    have h14 : (1 : ℝ) / 10 ^ 14 ≤ 1 := by norm_num
    intro x hx
    simp only [List.mem_cons, List.not_mem_nil, or_false] at hx
    rcases hx with rfl | rfl
    · exact ⟨le_rfl, Or.inl (by linarith)⟩
    · exact ⟨by linarith, Or.inl (by linarith)⟩
  have hw : fitWeights [(0 : ℝ), π / 2].length none = .ok [1, 1] := by simp [fitWeights]
  refine ⟨_, _, by
    unfold cwFit
    simp only [map_wrap_regular hreg, hw, bind, Except.bind]
    rw [if_neg (by simp), if_neg (by simp), if_pos (by trivial)], ?_⟩
  have hmom : moment [(0 : ℝ), π / 2] [1, 1] 1 = (1 + Complex.I) / 2 := by
    simp [moment, expSum, Complex.exp_pi_div_two_mul_I]
    norm_num
  have hcos : ∀ mu : ℝ, (Complex.exp ((-mu : ℝ) * Complex.I) * ((1 + Complex.I) / 2)).re = (cos mu + sin mu) / 2 := by
    intro mu
    rw [← mul_div_assoc, show (2 : ℂ) = ((2 : ℝ) : ℂ) by norm_num, Complex.div_ofReal_re, Complex.mul_re,
      Complex.exp_ofReal_mul_I_re, Complex.exp_ofReal_mul_I_im, cos_neg, sin_neg]
    simp
  have hst : (fitStart [(0 : ℝ), π / 2] [1, 1]).1 = π / 4 := by
    have hn : (1 + Complex.I) / 2 = ((√2 / 2 : ℝ) : ℂ) * Complex.exp ((π / 4 : ℝ) * Complex.I) := by
      apply Complex.ext
      · rw [Complex.re_ofReal_mul, Complex.exp_ofReal_mul_I_re, cos_pi_div_four, div_mul_div_comm, mul_self_sqrt two_pos.le]
        norm_num
      · rw [Complex.im_ofReal_mul, Complex.exp_ofReal_mul_I_im, sin_pi_div_four, div_mul_div_comm, mul_self_sqrt two_pos.le]
        norm_num
    have hs2 : (1 : ℝ) ≤ √2 := by rw [one_le_sqrt]; norm_num
    have hnorm : ‖(1 + Complex.I) / 2‖ = √2 / 2 := by
      rw [hn, norm_mul, Complex.norm_exp_ofReal_mul_I, mul_one, Complex.norm_real, norm_of_nonneg (by positivity)]
    have harg : Complex.arg ((1 + Complex.I) / 2) = π / 4 := by
      rw [hn, Complex.arg_real_mul _ (by positivity), Complex.arg_exp_mul_I,
        toIocMod_eq_self two_pi_pos]
      exact ⟨by linarith, by linarith⟩
    unfold fitStart
    rw [circMeanAndR_eq, hmom, if_neg (by norm_num), hnorm, if_neg (by norm_num; linarith), harg]
    simp only [Option.getD_some]
    rw [angmod2pi_eq_self (by linarith) (by linarith)]
    exact pymod_eq_self two_pi_pos (by linarith) (by linarith)
  have hs2 : (1 : ℝ) ≤ √2 := by rw [one_le_sqrt]; norm_num
  have hs3 : √2 ≤ 3 / 2 := by rw [sqrt_le_left (by norm_num)]; norm_num
  rw [hst, cwMeanT_eq _ _ (by simp) (by norm_num), hmom, hcos, cos_pi_div_four, sin_pi_div_four]
  have hm : (1 - (√2 / 2 + √2 / 2) / 2) / 2 = (2 - √2) / 4 := by ring
  rw [hm]
  unfold cwZetaMom clip
  simp only
  rw [max_eq_left (by linarith), min_eq_left (by norm_num; linarith), if_neg (by norm_num; linarith)]
  have hd : 0 < 1 / 2 - (2 - √2) / 4 := by linarith
  rw [max_eq_right (a := 1 / 10 ^ 12) (by norm_num; linarith)]
  have hq0 : 1 / 10 ^ 6 < (2 - √2) / 4 / (1 / 2 - (2 - √2) / 4) := by
    rw [lt_div_iff₀ hd]; norm_num; linarith
  have hq1 : (2 - √2) / 4 / (1 / 2 - (2 - √2) / 4) < 10 ^ 6 := by
    rw [div_lt_iff₀ hd]; norm_num; linarith
  rw [max_eq_left hq0.le, min_eq_left hq1.le]
  exact ⟨hq0, hq1⟩

/-- C101 for a concrete sample. -/
example : ∃ f : ℝ → ℝ, (∀ m, cwNll [0, 1] [1, 2] m (1 / 4) = some (f m)) ∧
    HasDerivAt f (cwGrad [0, 1] [1, 2] 1 (1 / 4)).1 1 := by
  refine (C101_cartwright_gradient (x := [0, 1]) (w := [1, 2]) (mu := 1) (zeta := 1 / 4) (by norm_num) ?_).1
  have : 0 < cos 1 := cos_pos_of_mem_Ioo ⟨by linarith [pi_gt_three], by linarith [pi_gt_three]⟩
  have h1 : (1 : ℝ) / 10 ^ 15 < 1 := by norm_num
  intro xi hxi
  simp only [List.mem_cons, List.not_mem_nil, or_false] at hxi
  rcases hxi with rfl | rfl
  · rw [zero_sub, cos_neg]; linarith
  · rw [sub_self, cos_zero]; linarith

open Classical in
private noncomputable def cwExampleMin (obj : ℝ → ℝ → Option ℝ) : MinResult 2 :=
  if h : ∃ p : ℝ × ℝ, ((0 ≤ p.1 ∧ p.1 ≤ 2 * π) ∧ (1 / 10 ^ 6 ≤ p.2 ∧ p.2 ≤ 10 ^ 6)) ∧ ∀ a b u, 0 ≤ a → a ≤ 2 * π → 1 / 10 ^ 6 ≤ b →
      b ≤ 10 ^ 6 → obj a b = some u → ∃ v, obj p.1 p.2 = some v ∧ v ≤ u
  then ⟨true, ![h.choose.1, h.choose.2]⟩ else ⟨false, 0⟩

private lemma cwExampleMin_spec (obj : ℝ → ℝ → Option ℝ) (h : (cwExampleMin obj).success) :
    (0 ≤ (cwExampleMin obj).x 0 ∧ (cwExampleMin obj).x 0 ≤ 2 * π) ∧
    (1 / 10 ^ 6 ≤ (cwExampleMin obj).x 1 ∧ (cwExampleMin obj).x 1 ≤ 10 ^ 6) ∧
    ∀ a b u, 0 ≤ a → a ≤ 2 * π → 1 / 10 ^ 6 ≤ b → b ≤ 10 ^ 6 → obj a b = some u →
      ∃ v, obj ((cwExampleMin obj).x 0) ((cwExampleMin obj).x 1) = some v ∧ v ≤ u := by
  unfold cwExampleMin at *
  split_ifs at * with c
  · exact ⟨c.choose_spec.1.1, c.choose_spec.1.2, c.choose_spec.2⟩

private lemma cwNll_one (a b : ℝ) (hb : 0 < b) :
    cwNll [1] [1] a b = some (-(cwLogC b + 1 / b * log (max (1 + cos (1 - a)) (1 / 10 ^ 15)))) := by
  unfold cwNll
  rw [if_neg (not_le.mpr hb)]
  simp

/-- C109: fitting a single observation with an exact optimiser succeeds and the estimate maximises the likelihood. -/
example (binv : ℝ → ℝ → ℝ → ℝ) : ∃ minimize zeta, cwFit minimize [1] none "mle" = .ok (1, zeta) ∧
    MaximisesLikelihood (distPdf (cartwright binv)) {s | (0 ≤ s.1 ∧ s.1 ≤ 2 * π) ∧ 1 / 10 ^ 6 ≤ s.2 ∧ s.2 ≤ 10 ^ 6}
      [1] (fullWeights 1 none) (1, zeta) := by
  have hpi := pi_gt_three
  have hreg : ∀ x ∈ [(1 : ℝ)], RegularAngle x := by
    intro x hx
    simp only [List.mem_singleton] at hx
    subst hx
    exact ⟨by norm_num, Or.inl (by linarith [show (1 : ℝ) / 10 ^ 14 ≤ 1 by norm_num])⟩
  have h6 : (0 : ℝ) < 1 / 10 ^ 6 := by positivity
  -- the best concentration exists
  have hcont : ContinuousOn (fun b : ℝ => -(cwLogC b + 1 / b * log 2)) (Set.Icc (1 / 10 ^ 6) (10 ^ 6)) := by
    intro b hb
    have hb0 : 0 < b := lt_of_lt_of_le h6 hb.1
    have hp : 0 < 1 / b := by positivity
    have c1 : ContinuousAt (fun z : ℝ => 1 / z) b := continuousAt_const.div continuousAt_id hb0.ne'
    have c2 : ContinuousAt (fun z : ℝ => gammaln (1 + 1 / z)) b :=
      ContinuousAt.comp (g := gammaln) (f := fun z : ℝ => 1 + 1 / z)
        (hasDerivAt_gammaln (by linarith)).continuousAt (continuousAt_const.add c1)
    have c3 : ContinuousAt (fun z : ℝ => gammaln (1 + 2 * (1 / z))) b :=
      ContinuousAt.comp (g := gammaln) (f := fun z : ℝ => 1 + 2 * (1 / z))
        (hasDerivAt_gammaln (by linarith)).continuousAt (continuousAt_const.add (continuousAt_const.mul c1))
    unfold cwLogC
    exact (((((continuousAt_const.add c1).mul continuousAt_const).add (continuousAt_const.mul c2)).sub continuousAt_const).sub c3
      |>.add (c1.mul continuousAt_const)).neg.continuousWithinAt
  obtain ⟨b, hb, hbmin⟩ := isCompact_Icc.exists_isMinOn (Set.nonempty_Icc.mpr (by norm_num : (1 : ℝ) / 10 ^ 6 ≤ 10 ^ 6)) hcont
  have hb0 : 0 < b := lt_of_lt_of_le h6 hb.1
  have h2 : (1 : ℝ) / 10 ^ 15 ≤ 1 + 1 := by norm_num
  have hle : ∀ a z : ℝ, 0 < z → -(cwLogC z + 1 / z * log 2) ≤ -(cwLogC z + 1 / z * log (max (1 + cos (1 - a)) (1 / 10 ^ 15))) := by
    intro a z hz
    have h3 : log (max (1 + cos (1 - a)) (1 / 10 ^ 15)) ≤ log 2 := by
      refine log_le_log (lt_of_lt_of_le (by norm_num) (le_max_right _ _)) (max_le (by linarith [cos_le_one (1 - a)]) (by norm_num))
    have := mul_le_mul_of_nonneg_left h3 (by positivity : 0 ≤ 1 / z)
    linarith
  have hex : ∃ p : ℝ × ℝ, ((0 ≤ p.1 ∧ p.1 ≤ 2 * π) ∧ (1 / 10 ^ 6 ≤ p.2 ∧ p.2 ≤ 10 ^ 6)) ∧ ∀ a z u, 0 ≤ a → a ≤ 2 * π →
      1 / 10 ^ 6 ≤ z → z ≤ 10 ^ 6 → cwNll [1] [1] a z = some u → ∃ v, cwNll [1] [1] p.1 p.2 = some v ∧ v ≤ u := by
    refine ⟨(1, b), ⟨⟨by norm_num, by linarith⟩, hb⟩, fun a z u _ _ z0 z1 hu => ⟨_, cwNll_one 1 b hb0, ?_⟩⟩
    rw [cwNll_one a z (by linarith), Option.some.injEq] at hu
    rw [← hu, sub_self, cos_zero, max_eq_left h2, one_add_one_eq_two]
    have h4 : -(cwLogC b + 1 / b * log 2) ≤ -(cwLogC z + 1 / z * log 2) := hbmin ⟨z0, z1⟩
    exact h4.trans (hle a z (by linarith))
  have hsucc : (cwExampleMin (cwNll [1] [1])).success := by unfold cwExampleMin; rw [dif_pos hex]
  obtain ⟨⟨s0, s1⟩, ⟨s2, s3⟩, s4⟩ := cwExampleMin_spec _ hsucc
  obtain ⟨r, hr⟩ : ∃ r, r = cwExampleMin (cwNll [1] [1]) := ⟨_, rfl⟩
  rw [← hr] at s0 s1 s2 s3 s4 hsucc
  have hz : 0 < r.x 1 := by linarith
  have hx0 : r.x 0 = 1 := by
    obtain ⟨v, hv, hvle⟩ := s4 1 (r.x 1) _ zero_le_one (by linarith) s2 s3 (cwNll_one 1 (r.x 1) hz)
    rw [cwNll_one _ _ hz, Option.some.injEq] at hv
    rw [← hv, sub_self, cos_zero, max_eq_left h2, one_add_one_eq_two] at hvle
    have h5 : log 2 ≤ log (max (1 + cos (1 - r.x 0)) (1 / 10 ^ 15)) := by
      have : 1 / r.x 1 * log 2 ≤ 1 / r.x 1 * log (max (1 + cos (1 - r.x 0)) (1 / 10 ^ 15)) := by linarith
      exact le_of_mul_le_mul_left this (by positivity)
    have h6 := (log_le_log_iff two_pos (lt_of_lt_of_le (by norm_num) (le_max_right _ _))).mp h5
    have h7 : 2 ≤ 1 + cos (1 - r.x 0) := by
      rcases le_max_iff.mp h6 with q | q
      · exact q
      · norm_num at q
    have h8 : cos (1 - r.x 0) = 1 := le_antisymm (cos_le_one _) (by linarith)
    have := (cos_eq_one_iff_of_lt_of_lt (by linarith) (by linarith)).mp h8
    linarith
  have hw1 : wrapDirection 1 = 1 := wrap2pi_self (by norm_num) (by linarith [wrapTol_lt, show (1 : ℝ) / 10 ^ 14 < 1 by norm_num])
  have hfit : cwFit (fun obj _ _ => cwExampleMin obj) [1] none "mle" = .ok (1, r.x 1) := by
    have hw : fitWeights [(1 : ℝ)].length none = .ok [1] := by simp [fitWeights]
    unfold cwFit
    simp only [map_wrap_regular hreg, hw, bind, Except.bind]
    rw [← hr, if_neg (by simp), if_neg (by simp), if_neg (by simp), if_neg (by simpa using hsucc), hx0, hw1]
    unfold clip
    rw [max_eq_left s2, min_eq_left s3]
  refine ⟨_, _, hfit, C109_cartwright binv _ (fun obj _ _ h => cwExampleMin_spec obj h) [1] hreg none 1 (r.x 1) hfit
    (by linarith) fun x hx => ?_⟩
  simp only [List.mem_singleton] at hx
  rw [hx, sub_self, cos_zero]; exact h2

end Verif
