import Verif.Model.DistVonMises
import Mathlib.MeasureTheory.Function.JacobianOneDim
import Mathlib.Analysis.SpecialFunctions.Trigonometric.InverseDeriv
import Mathlib.Analysis.SpecialFunctions.Exp

/-! # The rejection step of Best and Fisher -/

set_option autoImplicit false

namespace Verif

open Real MeasureTheory

/-- The constant `r` of the sampler. -/
noncomputable def bfR (kappa : ℝ) : ℝ := (1 + √(1 + 4 * kappa ^ 2)) / (2 * kappa)

/-- The cosine of the proposal. -/
noncomputable def bfF (r u : ℝ) : ℝ := (1 + r * cos (π * u)) / (r + cos (π * u))

/-- The share of accepted proposals with cosine `f`. -/
noncomputable def bfG (kappa r f : ℝ) : ℝ := kappa * (r - f) * exp (1 - kappa * (r - f))

lemma bfR_spec {kappa : ℝ} (hk : 0 < kappa) : 1 < bfR kappa ∧
    (bfR kappa) ^ 2 - 1 = bfR kappa / kappa ∧
    (1 + (((1 + √(1 + 4 * kappa ^ 2)) - √(2 * (1 + √(1 + 4 * kappa ^ 2)))) / (2 * kappa)) ^ 2)
      / (2 * (((1 + √(1 + 4 * kappa ^ 2)) - √(2 * (1 + √(1 + 4 * kappa ^ 2)))) / (2 * kappa))) = bfR kappa := by
  unfold bfR
  obtain ⟨q, hq⟩ : ∃ q, q = √(1 + 4 * kappa ^ 2) := ⟨_, rfl⟩
  have hq2 : q ^ 2 = 1 + 4 * kappa ^ 2 := by rw [hq]; exact sq_sqrt (by positivity)
  have hq0 : 0 ≤ q := by rw [hq]; exact sqrt_nonneg _
  have hq1 : 1 < q := by nlinarith [mul_pos hk hk]
  have hq3 : 2 * kappa < q := by nlinarith
  rw [← hq]
  obtain ⟨d, hd⟩ : ∃ d, d = √(2 * (1 + q)) := ⟨_, rfl⟩
  have hd2 : d ^ 2 = 2 * (1 + q) := by rw [hd]; exact sq_sqrt (by linarith)
  have hd0 : 0 < d := by rw [hd]; exact sqrt_pos.2 (by linarith)
  rw [← hd]
  have hda : d < 1 + q := by nlinarith
  refine ⟨?_, ?_, ?_⟩
  · rw [lt_div_iff₀ (by positivity)]; linarith
  · field_simp
    nlinarith
  · have hb : 1 + q - d ≠ 0 := by linarith
    field_simp
    nlinarith

lemma bf_den {r u : ℝ} (hr : 1 < r) : 0 < r + cos (π * u) := by linarith [neg_one_le_cos (π * u)]

lemma bfF_mem {r u : ℝ} (hr : 1 < r) : -1 ≤ bfF r u ∧ bfF r u ≤ 1 := by
  unfold bfF
  have h := bf_den (u := u) hr
  have h1 := neg_one_le_cos (π * u)
  have h2 := cos_le_one (π * u)
  constructor
  · rw [le_div_iff₀ h]; nlinarith
  · rw [div_le_one h]; nlinarith

/-- The two tests of the code amount to the second one, whose bound is a probability. -/
lemma bf_accept {c u : ℝ} (hc : 0 < c) : (u < c * (2 - c) ∨ u ≤ c * exp (1 - c)) ↔ u ≤ c * exp (1 - c) := by
  constructor
  · rintro (h | h)
    · have h1 := add_one_le_exp (1 - c)
      have h2 : c * (2 - c) ≤ c * exp (1 - c) := mul_le_mul_of_nonneg_left (by linarith) hc.le
      linarith
    · exact h
  · exact Or.inr

lemma bf_prob {c : ℝ} (hc : 0 < c) : 0 < c * exp (1 - c) ∧ c * exp (1 - c) ≤ 1 := by
  refine ⟨mul_pos hc (exp_pos _), ?_⟩
  have h1 := add_one_le_exp (c - 1)
  have h2 : exp (c - 1) * exp (1 - c) = 1 := by rw [← exp_add]; simp
  calc c * exp (1 - c) ≤ exp (c - 1) * exp (1 - c) := mul_le_mul_of_nonneg_right (by linarith) (exp_pos _).le
    _ = 1 := h2

/-! ## The change of variables -/

/-- The draw that proposes the deviation `t`. -/
noncomputable def bfInv (r t : ℝ) : ℝ := arccos ((r * cos t - 1) / (r - cos t)) / π

private lemma sub_pos' {r : ℝ} (hr : 1 < r) (t : ℝ) : 0 < r - cos t := by linarith [cos_le_one t]

private lemma w_mem {r t : ℝ} (hr : 1 < r) (ht : t ∈ Set.Ioo 0 π) :
    -1 < (r * cos t - 1) / (r - cos t) ∧ (r * cos t - 1) / (r - cos t) < 1 := by
  have h := sub_pos' hr t
  have hs : 0 < sin t := sin_pos_of_pos_of_lt_pi ht.1 ht.2
  have h1 : cos t < 1 := by nlinarith [sin_sq_add_cos_sq t, cos_le_one t, mul_pos hs hs]
  have h2 : -1 < cos t := by nlinarith [sin_sq_add_cos_sq t, neg_one_le_cos t, mul_pos hs hs]
  constructor
  · rw [lt_div_iff₀ h]; nlinarith
  · rw [div_lt_one h]; nlinarith

lemma bfF_bfInv {r t : ℝ} (hr : 1 < r) (ht : t ∈ Set.Ioo 0 π) : bfF r (bfInv r t) = cos t := by
  unfold bfF bfInv
  have hw := w_mem hr ht
  rw [mul_div_cancel₀ _ pi_ne_zero, cos_arccos hw.1.le hw.2.le]
  have h := sub_pos' hr t
  have h3 : r + (r * cos t - 1) / (r - cos t) ≠ 0 := by
    have := hw.1; intro h0; linarith
  have h4 : r ^ 2 - 1 ≠ 0 := by nlinarith
  rw [div_eq_iff h3]
  field_simp
  ring

lemma bfInv_mem {r t : ℝ} (hr : 1 < r) (ht : t ∈ Set.Ioo 0 π) : bfInv r t ∈ Set.Ioo (0 : ℝ) 1 := by
  have hw := w_mem hr ht
  unfold bfInv
  constructor
  · exact div_pos (arccos_pos.2 hw.2) pi_pos
  · rw [div_lt_one pi_pos]
    refine lt_of_le_of_ne (arccos_le_pi _) fun h => ?_
    rw [arccos_eq_pi] at h
    linarith

lemma bfInv_image {r : ℝ} (hr : 1 < r) : bfInv r '' Set.Ioo 0 π = Set.Ioo 0 1 := by
  ext u
  constructor
  · rintro ⟨t, ht, rfl⟩; exact bfInv_mem hr ht
  · intro hu
    have hpu : π * u ∈ Set.Ioo 0 π := ⟨mul_pos pi_pos hu.1, by nlinarith [pi_pos, hu.2]⟩
    have hs : 0 < sin (π * u) := sin_pos_of_pos_of_lt_pi hpu.1 hpu.2
    have h1 : cos (π * u) < 1 := by nlinarith [sin_sq_add_cos_sq (π * u), cos_le_one (π * u), mul_pos hs hs]
    have h2 : -1 < cos (π * u) := by nlinarith [sin_sq_add_cos_sq (π * u), neg_one_le_cos (π * u), mul_pos hs hs]
    have hd := bf_den (u := u) hr
    have f1 : bfF r u < 1 := by unfold bfF; rw [div_lt_one hd]; nlinarith
    have f2 : -1 < bfF r u := by unfold bfF; rw [lt_div_iff₀ hd]; nlinarith
    refine ⟨arccos (bfF r u), ⟨arccos_pos.2 f1, lt_of_le_of_ne (arccos_le_pi _) fun h => ?_⟩, ?_⟩
    · rw [arccos_eq_pi] at h; linarith
    · unfold bfInv
      rw [cos_arccos f2.le f1.le]
      have h3 : (r * bfF r u - 1) / (r - bfF r u) = cos (π * u) := by
        rw [div_eq_iff (by linarith)]
        unfold bfF
        field_simp
        ring
      rw [h3, arccos_cos hpu.1.le hpu.2.le]
      field_simp

lemma bfInv_inj {r : ℝ} (hr : 1 < r) : Set.InjOn (bfInv r) (Set.Ioo 0 π) := by
  intro a ha b hb h
  have h1 := bfF_bfInv hr ha
  rw [h, bfF_bfInv hr hb] at h1
  exact (injOn_cos ⟨hb.1.le, hb.2.le⟩ ⟨ha.1.le, ha.2.le⟩ h1).symm

lemma bfInv_deriv {r t : ℝ} (hr : 1 < r) (ht : t ∈ Set.Ioo 0 π) :
    HasDerivAt (bfInv r) (√(r ^ 2 - 1) / (π * (r - cos t))) t := by
  have hw := w_mem hr ht
  have h := sub_pos' hr t
  have hs : 0 < sin t := sin_pos_of_pos_of_lt_pi ht.1 ht.2
  have hr2 : 0 < r ^ 2 - 1 := by nlinarith
  have h1 : HasDerivAt (fun t => (r * cos t - 1) / (r - cos t))
      ((r * -sin t * (r - cos t) - (r * cos t - 1) * (- -sin t)) / (r - cos t) ^ 2) t :=
    (((hasDerivAt_cos t).const_mul r).sub_const 1).div ((hasDerivAt_cos t).const_sub r) h.ne'
  have h2 := ((hasDerivAt_arccos hw.1.ne' hw.2.ne).comp t h1).div_const π
  refine h2.congr_deriv ?_
  have h3 : √(1 - ((r * cos t - 1) / (r - cos t)) ^ 2) = √(r ^ 2 - 1) * sin t / (r - cos t) := by
    rw [show 1 - ((r * cos t - 1) / (r - cos t)) ^ 2 = (√(r ^ 2 - 1) * sin t / (r - cos t)) ^ 2 from ?_,
      sqrt_sq (by positivity)]
    rw [div_pow, div_pow, mul_pow, sq_sqrt hr2.le, eq_div_iff (by positivity), sub_mul, div_mul_cancel₀ _ (by positivity)]
    have := sin_sq t
    rw [this]; ring
  rw [h3]
  have hq : √(r ^ 2 - 1) ≠ 0 := (sqrt_pos.2 hr2).ne'
  have hq2 : √(r ^ 2 - 1) ^ 2 = r ^ 2 - 1 := sq_sqrt hr2.le
  have := pi_ne_zero
  field_simp
  rw [hq2]
  ring

/-- The mass of the accepted proposals whose deviation lies in `S`, over the uniform draw `u`. -/
lemma bf_mass {kappa r : ℝ} (hk : 0 < kappa) (hr : 1 < r) (S : Set ℝ) (hS : MeasurableSet S) :
    ∫⁻ u in Set.Ioo (0 : ℝ) 1, ({u | arccos (bfF r u) ∈ S} : Set ℝ).indicator
        (fun u => ENNReal.ofReal (bfG kappa r (bfF r u))) u
      = ∫⁻ t in S ∩ Set.Ioo 0 π, ENNReal.ofReal (kappa * √(r ^ 2 - 1) / π * exp (1 - kappa * r) * exp (kappa * cos t)) := by
  rw [← bfInv_image hr, lintegral_image_eq_lintegral_abs_deriv_mul measurableSet_Ioo
    (fun t ht => (bfInv_deriv hr ht).hasDerivWithinAt) (bfInv_inj hr), ← Measure.restrict_restrict hS,
    ← lintegral_indicator hS]
  refine setLIntegral_congr_fun measurableSet_Ioo fun t ht => ?_
  have h := sub_pos' hr t
  have e1 : bfF r (bfInv r t) = cos t := bfF_bfInv hr ht
  have e2 : arccos (cos t) = t := arccos_cos ht.1.le ht.2.le
  have e3 : bfInv r t ∈ ({u | arccos (bfF r u) ∈ S} : Set ℝ) ↔ t ∈ S := by
    rw [Set.mem_ofPred_eq, e1, e2]
  by_cases ht' : t ∈ S
  · rw [Set.indicator_of_mem (e3.2 ht'), Set.indicator_of_mem ht', e1, ← ENNReal.ofReal_mul (abs_nonneg _),
      abs_of_nonneg (by positivity)]
    congr 1
    unfold bfG
    rw [show 1 - kappa * (r - cos t) = (1 - kappa * r) + kappa * cos t by ring, exp_add]
    have := pi_ne_zero
    field_simp
  · rw [Set.indicator_of_notMem (fun h' => ht' (e3.1 h')), Set.indicator_of_notMem ht', mul_zero]

end Verif
