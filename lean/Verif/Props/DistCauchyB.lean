import Verif.Props.DistCauchy
import Verif.Props.DistSimpleB
import Mathlib.MeasureTheory.Integral.IntervalIntegral.Periodic

/-! # Properties C83, C101 and C102 for the wrapped Cauchy distribution: estimator and sampler -/

set_option autoImplicit false

namespace Verif

open Real Verif.Spec MeasureTheory

/-- The measure of the arc of length `L` that starts at `a`, taken modulo `2π`. -/
theorem measure_arc (a b : ℝ) {L : ℝ} (h0 : 0 ≤ L) (h1 : L ≤ 2 * π) :
    volume {u | b ≤ u ∧ u < b + 2 * π ∧ pymod (u - a) (2 * π) ≤ L} = ENNReal.ofReal L := by
  have hp := two_pi_pos
  set A : Set ℝ := {u | pymod (u - a) (2 * π) ≤ L} with hA
  have hinv : ∀ (k : ℤ) (u : ℝ), pymod (u + k * (2 * π) - a) (2 * π) = pymod (u - a) (2 * π) := by
    intro k u
    refine (pymod_eq_iff hp).mpr ⟨pymod_nonneg hp _, pymod_lt hp _, ?_⟩
    obtain ⟨j, hj⟩ := pymod_cong (u - a) (2 * π)
    exact ⟨j - k, by rw [hj]; push_cast; ring⟩
  rcases h1.eq_or_lt with h | hlt
  · have : {u | b ≤ u ∧ u < b + 2 * π ∧ pymod (u - a) (2 * π) ≤ L} = Set.Ico b (b + 2 * π) := by
      ext u
      constructor
      · rintro ⟨p, q, _⟩; exact ⟨p, q⟩
      · rintro ⟨p, q⟩; exact ⟨p, q, by rw [h]; exact (pymod_lt hp _).le⟩
    rw [this, Real.volume_Ico, h]; congr 1; ring
  have hAu : A = ⋃ k : ℤ, Set.Icc (a + k * (2 * π)) (a + k * (2 * π) + L) := by
    ext u
    rw [Set.mem_iUnion]
    constructor
    · intro hu
      obtain ⟨j, hj⟩ := pymod_cong (u - a) (2 * π)
      have h2 : pymod (u - a) (2 * π) ≤ L := hu
      refine ⟨-j, ?_, ?_⟩
      · have := pymod_nonneg hp (u - a)
        push_cast; linarith
      · push_cast; linarith
    · rintro ⟨k, p, q⟩
      show pymod (u - a) (2 * π) ≤ L
      rw [(pymod_eq_iff hp (y := u - a - k * (2 * π))).mpr ⟨by linarith, by linarith,
        ⟨-k, by push_cast; ring⟩⟩]
      linarith
  have hAm : MeasurableSet A := by
    rw [hAu]; exact MeasurableSet.iUnion fun k => measurableSet_Icc
  have hset : {u | b ≤ u ∧ u < b + 2 * π ∧ pymod (u - a) (2 * π) ≤ L}
      = A ∩ Set.Ico b (b + 2 * π) := by
    ext u
    constructor
    · rintro ⟨p, q, r⟩; exact ⟨r, p, q⟩
    · rintro ⟨r, p, q⟩; exact ⟨p, q, r⟩
  have hmv : volume (A ∩ Set.Ioc b (b + 2 * π)) = volume (A ∩ Set.Ioc a (a + 2 * π)) := by
    apply IsAddFundamentalDomain.measure_set_eq (isAddFundamentalDomain_Ioc hp b volume)
      (isAddFundamentalDomain_Ioc hp a volume) hAm
    rintro ⟨g, hg⟩
    obtain ⟨k, rfl⟩ := AddSubgroup.mem_zmultiples_iff.mp hg
    ext u
    show pymod (k • (2 * π) + u - a) (2 * π) ≤ L ↔ pymod (u - a) (2 * π) ≤ L
    rw [zsmul_eq_mul, add_comm, hinv]
  have hae : volume (A ∩ Set.Ico b (b + 2 * π)) = volume (A ∩ Set.Ioc b (b + 2 * π)) :=
    measure_congr ((ae_eq_refl A).inter Ico_ae_eq_Ioc)
  have hae2 : volume (A ∩ Set.Ioc a (a + 2 * π)) = volume (A ∩ Set.Ico a (a + 2 * π)) :=
    measure_congr ((ae_eq_refl A).inter Ico_ae_eq_Ioc.symm)
  have hfin : A ∩ Set.Ico a (a + 2 * π) = Set.Icc a (a + L) := by
    ext u
    constructor
    · rintro ⟨r, p, q⟩
      have h2 : pymod (u - a) (2 * π) ≤ L := r
      rw [pymod_eq_self hp (by linarith) (by linarith)] at h2
      exact ⟨p, by linarith⟩
    · rintro ⟨p, q⟩
      refine ⟨?_, p, by linarith⟩
      show pymod (u - a) (2 * π) ≤ L
      rw [pymod_eq_self hp (by linarith) (by linarith)]
      linarith
  rw [hset, hae, hmv, hae2, hfin, Real.volume_Icc]
  congr 1; ring

/-- The Möbius image undone: the draw `u` agrees, modulo `2π`, with `μ + 2π K(θ - μ)`. -/
theorem wcMobius_inverse {mu rho u : ℝ} (h0 : 0 ≤ rho) (h1 : rho < 1) :
    SameDir (mu + 2 * π * wcK rho (pymod (Complex.arg (wcMobius u mu rho)) (2 * π) - mu)) u := by
  set t := pymod (Complex.arg (wcMobius u mu rho)) (2 * π) with ht
  obtain ⟨j, hj⟩ := pymod_cong (Complex.arg (wcMobius u mu rho)) (2 * π)
  set z := Complex.exp (u * Complex.I) with hz
  set m := Complex.exp (mu * Complex.I) with hm
  have hzn : ‖z‖ = 1 := Complex.norm_exp_ofReal_mul_I u
  have hmn : ‖m‖ = 1 := Complex.norm_exp_ofReal_mul_I mu
  have hm0 : m ≠ 0 := Complex.exp_ne_zero _
  have hminv : Complex.exp (-(mu * Complex.I)) = m⁻¹ := by rw [Complex.exp_neg]
  have hw : wcMobius u mu rho = (z + rho * m) / (1 + rho * m⁻¹ * z) := by
    unfold wcMobius; rw [hminv]
  have hd1 : (1 : ℂ) + rho * m⁻¹ * z ≠ 0 := by
    intro h
    have h2 : (rho : ℂ) * m⁻¹ * z = -1 := by linear_combination h
    have h3 : ‖(rho : ℂ) * m⁻¹ * z‖ = rho := by
      rw [norm_mul, norm_mul, norm_inv, hzn, hmn, Complex.norm_real, norm_of_nonneg h0]; simp
    rw [h2, norm_neg, norm_one] at h3
    linarith
  have hmz : m + rho * z ≠ 0 := by
    intro h
    apply hd1
    have : (1 : ℂ) + rho * m⁻¹ * z = m⁻¹ * (m + rho * z) := by field_simp
    rw [this, h, mul_zero]
  have hwn : ‖wcMobius u mu rho‖ = 1 := by
    rw [hw, norm_div, div_eq_one_iff_eq (norm_ne_zero_iff.mpr hd1)]
    have e1 : (1 : ℂ) + rho * m⁻¹ * z = z * (starRingEnd ℂ) (z + rho * m) := by
      have c1 : (starRingEnd ℂ) z = z⁻¹ := by
        rw [Complex.inv_def, Complex.normSq_eq_norm_sq, hzn]; simp
      have c2 : (starRingEnd ℂ) m = m⁻¹ := by
        rw [Complex.inv_def, Complex.normSq_eq_norm_sq, hmn]; simp
      have hz0 : z ≠ 0 := Complex.exp_ne_zero _
      rw [map_add, map_mul, c1, c2, Complex.conj_ofReal]
      field_simp
    rw [e1, norm_mul, hzn, Complex.norm_conj, one_mul]
  have het : Complex.exp (t * Complex.I) = wcMobius u mu rho := by
    have : (t : ℂ) * Complex.I
        = Complex.arg (wcMobius u mu rho) * Complex.I + j * (2 * π * Complex.I) := by
      rw [ht, hj]; push_cast; ring
    rw [this, Complex.exp_add, Complex.exp_int_mul_two_pi_mul_I, mul_one]
    have := Complex.norm_mul_exp_arg_mul_I (wcMobius u mu rho)
    rwa [hwn, Complex.ofReal_one, one_mul] at this
  have hmain : Complex.exp ((mu + 2 * π * wcK rho (t - mu) : ℝ) * Complex.I) = z := by
    have e : ((mu + 2 * π * wcK rho (t - mu) : ℝ) : ℂ) * Complex.I
        = mu * Complex.I + ((2 * π * wcK rho (t - mu) : ℝ) : ℂ) * Complex.I := by
      push_cast; ring
    have e2 : Complex.exp (((t - mu : ℝ) : ℂ) * Complex.I) = wcMobius u mu rho * m⁻¹ := by
      have : ((t - mu : ℝ) : ℂ) * Complex.I = t * Complex.I + -(mu * Complex.I) := by push_cast; ring
      rw [this, Complex.exp_add, het, hminv]
    rw [e, Complex.exp_add, exp_wcK h0 h1, e2, ← hm, hw]
    have hr2 : (1 : ℂ) - rho ^ 2 ≠ 0 := by
      have : (1 : ℝ) - rho ^ 2 ≠ 0 := by nlinarith
      exact_mod_cast this
    have hW : (z + rho * m) / (1 + rho * m⁻¹ * z) * m⁻¹ = (z + rho * m) / (m + rho * z) := by
      have : m + rho * z = (1 + rho * m⁻¹ * z) * m := by field_simp
      rw [this, div_mul_eq_div_div]
      rfl
    have n1 : (z + rho * m) / (m + rho * z) - rho = (1 - rho ^ 2) * z / (m + rho * z) := by
      rw [eq_div_iff hmz, sub_mul, div_mul_cancel₀ _ hmz]; ring
    have n2 : 1 - rho * ((z + rho * m) / (m + rho * z)) = (1 - rho ^ 2) * m / (m + rho * z) := by
      rw [eq_div_iff hmz, sub_mul, mul_assoc, div_mul_cancel₀ _ hmz]; ring
    rw [hW, n1, n2, div_div_div_cancel_right₀ hmz, mul_div_mul_left _ _ hr2, mul_div_cancel₀ _ hm0]
  obtain ⟨k, hk⟩ := Complex.exp_eq_exp_iff_exists_int.mp hmain
  refine ⟨k, ?_⟩
  have := congrArg Complex.im hk
  simpa using this

/-- **C102.** Samples of the wrapped Cauchy distribution: for `rho` above `1e-15` and below
`1 - 1.1e-5`, the probability (over the sampler's uniform draw `u` from `[-π, π)`) that the sample is
at most `x` is exactly the integral of the density from 0 to `x`; every sample lies in `[0, 2π)`. -/
theorem C102_wrapcauchy {mu rho x : ℝ} (u0 : ℝ) (h0 : 1 / 10 ^ 15 < rho)
    (h1 : rho < 1 - 11 / 10 ^ 6) (hx0 : 0 ≤ x) (hx1 : x ≤ 2 * π) :
    (∀ u, 0 ≤ wcRvs u u0 mu rho ∧ wcRvs u u0 mu rho < 2 * π) ∧
    volume.real {u | -π ≤ u ∧ u < π ∧ wcRvs u u0 mu rho ≤ x} / (2 * π)
      = ∫ t in (0 : ℝ)..x, (1 - rho ^ 2) / (2 * π * (1 + rho ^ 2 - 2 * rho * cos (t - mu))) := by
  have hp := two_pi_pos
  have h15 : (0 : ℝ) < 1 / 10 ^ 15 := by positivity
  have hr0 : 0 ≤ rho := by linarith
  have hr1 : rho < 1 := h1.trans (by norm_num)
  have hc0 : ¬ isclose rho 0 rtolDefault (1 / 10 ^ 15) := by
    unfold isclose
    rw [sub_zero, abs_of_nonneg hr0, abs_zero, mul_zero, add_zero]
    exact not_le.mpr h0
  have hc1 : ¬ isclose rho 1 rtolDefault (1 / 10 ^ 15) := by
    unfold isclose rtolDefault
    rw [abs_of_neg (by linarith), abs_one, not_le]
    norm_num at h1 ⊢
    linarith
  have hS : ∀ u, wcRvs u u0 mu rho = pymod (Complex.arg (wcMobius u mu rho)) (2 * π) := by
    intro u; unfold wcRvs; rw [if_neg hc0, if_neg hc1]
  refine ⟨fun u => by rw [hS]; exact ⟨pymod_nonneg hp _, pymod_lt hp _⟩, ?_⟩
  have hI : ∫ t in (0 : ℝ)..x, (1 - rho ^ 2) / (2 * π * (1 + rho ^ 2 - 2 * rho * cos (t - mu)))
      = wcK rho (x - mu) - wcK rho (0 - mu) := wcPdf_integral mu hr0 hr1 0 x
  have hsm := wcK_strictMono hr0 hr1
  have hper : wcK rho (2 * π - mu) = wcK rho (0 - mu) + 1 := by
    rw [show (2 * π - mu : ℝ) = 0 - mu + 2 * π by ring, wcK_add_two_pi]
  set a := mu + 2 * π * wcK rho (0 - mu) with ha
  set L := 2 * π * (wcK rho (x - mu) - wcK rho (0 - mu)) with hL
  have hL0 : 0 ≤ L := mul_nonneg hp.le (by
    have := hsm.monotone (by linarith : 0 - mu ≤ x - mu); linarith)
  have hL1 : L ≤ 2 * π := by
    have := hsm.monotone (by linarith : x - mu ≤ 2 * π - mu)
    rw [hper] at this
    rw [hL]; nlinarith
  have hkey : ∀ u, wcRvs u u0 mu rho ≤ x ↔ pymod (u - a) (2 * π) ≤ L := by
    intro u
    rw [hS]
    have hinv := wcMobius_inverse (mu := mu) (u := u) hr0 hr1
    have t0 := pymod_nonneg hp (Complex.arg (wcMobius u mu rho))
    have t1 := pymod_lt hp (Complex.arg (wcMobius u mu rho))
    set t := pymod (Complex.arg (wcMobius u mu rho)) (2 * π) with ht
    obtain ⟨k, hk⟩ := hinv
    have hge := hsm.monotone (by linarith : 0 - mu ≤ t - mu)
    have hlt := hsm (by linarith : t - mu < 2 * π - mu)
    rw [hper] at hlt
    have e : pymod (u - a) (2 * π) = 2 * π * (wcK rho (t - mu) - wcK rho (0 - mu)) := by
      refine (pymod_eq_iff hp).mpr ⟨mul_nonneg hp.le (by linarith), by nlinarith, ⟨k, ?_⟩⟩
      rw [ha]; linarith
    rw [e, hL, mul_le_mul_iff_of_pos_left hp]
    constructor
    · intro h
      have := hsm.monotone (by linarith : t - mu ≤ x - mu)
      linarith
    · intro h
      have := hsm.le_iff_le.mp (by linarith : wcK rho (t - mu) ≤ wcK rho (x - mu))
      linarith
  have hset : {u | -π ≤ u ∧ u < π ∧ wcRvs u u0 mu rho ≤ x}
      = {u | -π ≤ u ∧ u < -π + 2 * π ∧ pymod (u - a) (2 * π) ≤ L} := by
    ext u
    simp only [Set.mem_ofPred_eq, hkey u, show -π + 2 * π = π by ring]
  rw [hset, measureReal_def, measure_arc a (-π) hL0 hL1, ENNReal.toReal_ofReal hL0, hL, hI]
  field_simp

/-- **C102 (negative).** For `rho` within `1e-5` of 1 the sampler has no randomness: every sample is
the mean direction itself, although the density is spread out (for `rho = 1 - 1e-5` the interval of
half-width `1e-5` around `mu` carries about half of the mass). -/
theorem C102_wrapcauchy_degenerate {mu rho : ℝ} (u u0 : ℝ) (h0 : 1 - 1 / 10 ^ 5 ≤ rho) (h1 : rho < 1) :
    wcRvs u u0 mu rho = pymod mu (2 * π) := by
  have hc0 : ¬ isclose rho 0 rtolDefault (1 / 10 ^ 15) := by
    unfold isclose
    rw [sub_zero, abs_of_nonneg (le_trans (by norm_num) h0), abs_zero, mul_zero, add_zero, not_le]
    exact lt_of_lt_of_le (by norm_num) h0
  unfold wcRvs
  rw [if_neg hc0, if_pos]
  unfold isclose rtolDefault
  rw [abs_of_neg (by linarith), abs_one]
  norm_num at h0 ⊢
  linarith

/-- At `rho = 1 - 1e-5` the mass within `1e-5` of the mean direction is below 0.6. -/
theorem C102_wrapcauchy_spread (mu : ℝ) :
    ∫ t in (mu - 1 / 10 ^ 5)..(mu + 1 / 10 ^ 5), wcPdf t mu (1 - 1 / 10 ^ 5) ≤ 6 / 10 := by
  have hpi := pi_gt_three
  have hr0 : (0 : ℝ) ≤ 1 - 1 / 10 ^ 5 := by norm_num
  have hr1 : (1 : ℝ) - 1 / 10 ^ 5 < 1 := by norm_num
  rw [wcPdf_integral mu hr0 hr1, show mu + 1 / 10 ^ 5 - mu = (1 / 10 ^ 5 : ℝ) by ring,
    show mu - 1 / 10 ^ 5 - mu = (-(1 / 10 ^ 5) : ℝ) by ring, wcK_neg]
  have hK : wcK (1 - 1 / 10 ^ 5) (1 / 10 ^ 5) ≤ 3 / 10 := by
    unfold wcK
    have hd := wc_den_pos hr0 hr1 (1 / 10 ^ 5)
    have hs := sin_le (x := (1 : ℝ) / 10 ^ 5) (by norm_num)
    have hc := cos_le_one ((1 : ℝ) / 10 ^ 5)
    have hat : arctan ((1 - 1 / 10 ^ 5) * sin (1 / 10 ^ 5)
        / (1 - (1 - 1 / 10 ^ 5) * cos (1 / 10 ^ 5))) ≤ π / 4 := by
      rw [← arctan_one]
      apply arctan_mono
      rw [div_le_iff₀ hd]
      norm_num at hs hc ⊢
      linarith
    have h2 : arctan ((1 - 1 / 10 ^ 5) * sin (1 / 10 ^ 5)
        / (1 - (1 - 1 / 10 ^ 5) * cos (1 / 10 ^ 5))) / π ≤ 1 / 4 := by
      rw [div_le_iff₀ pi_pos]; linarith
    have h3 : (1 : ℝ) / 10 ^ 5 / (2 * π) ≤ 1 / 20 := by
      rw [div_le_iff₀ two_pi_pos]; norm_num; linarith
    linarith
  linarith

/-! ## C83 and C101 -/

/-- **C83.** Every estimate of `wrapcauchy.fit`, whatever the optimiser returns, is accepted by the
distribution itself. -/
theorem C83_wrapcauchy
    (minimize : (ℝ → ℝ → Option ℝ) → (ℝ → ℝ → ℝ × ℝ) → ℝ × ℝ → MinResult 2)
    (data : List ℝ) (weights : Option (List ℝ)) (method : String) (s : ℝ × ℝ)
    (h : wcFit minimize data weights method = .ok s) : wrapcauchy.argcheck s := by
  unfold wcFit at h
  simp only at h
  rcases hw : fitWeights (data.map wrap2pi).length weights with e | w
  · rw [hw] at h
    split_ifs at h <;> cases h
  · rw [hw] at h
    simp only [bind, Except.bind] at h
    split_ifs at h <;> cases h <;> first
      | exact ⟨wrap2pi_mem _, (clip_mem (by norm_num)).1,
          lt_of_le_of_lt (clip_mem (by norm_num)).2 (by norm_num)⟩
      | exact ⟨wrap2pi_mem _, le_trans (by norm_num) (clip_mem (by norm_num)).1,
          lt_of_le_of_lt (clip_mem (by norm_num)).2 (by norm_num)⟩

theorem wc_denom_clip {rho : ℝ} (h0 : 0 ≤ rho) (h1 : rho < 1 - 1 / 10 ^ 7) (phi : ℝ) :
    max (1 + rho ^ 2 - 2 * rho * cos phi) (1 / 10 ^ 15) = 1 + rho ^ 2 - 2 * rho * cos phi := by
  apply max_eq_left
  have h2 : (1 - rho) ^ 2 ≤ 1 + rho ^ 2 - 2 * rho * cos phi := by nlinarith [cos_le_one phi]
  have h3 : (1 / 10 ^ 7 : ℝ) ^ 2 ≤ (1 - rho) ^ 2 :=
    pow_le_pow_left₀ (by norm_num) (by linarith) 2
  refine le_trans ?_ h2
  refine le_trans ?_ h3
  norm_num

/-- **C101.** The objective of `wrapcauchy.fit` is the weighted negative log-likelihood of the
distribution's own density, for `rho` up to `1 - 1e-7`. -/
theorem C101_wrapcauchy_objective {x w : List ℝ} {mu rho : ℝ} (h0 : 0 ≤ rho)
    (h1 : rho < 1 - 1 / 10 ^ 7) :
    wcNll x w mu rho
      = some (-(List.zipWith (fun xi wi => wi * log (wrapcauchy.pdf xi (mu, rho))) x w).sum) := by
  have hr1 : rho < 1 := h1.trans (by norm_num)
  unfold wcNll
  rw [if_neg (not_not.mpr ⟨h0, hr1⟩)]
  congr 2
  apply zipWith_sum_congr
  intro xi _ wi _
  have hk := wc_kernel_pos h0 hr1 (xi - mu)
  show _ = wi * log (wcPdf xi mu rho)
  rw [wc_denom_clip h0 h1]
  unfold wcPdf
  rw [log_div (by nlinarith) (by positivity), log_mul two_pi_pos.ne' hk.ne']
  ring

/-- **C101.** The gradient handed to the optimiser by `wrapcauchy.fit` is the gradient of the
objective handed to it, for `rho` up to `1 - 1e-7`. -/
theorem C101_wrapcauchy_gradient {x w : List ℝ} {mu rho : ℝ} (hl : x.length = w.length)
    (h0 : 0 < rho) (h1 : rho < 1 - 1 / 10 ^ 7) :
    (∃ f : ℝ → ℝ, (∀ m, wcNll x w m rho = some (f m)) ∧
      HasDerivAt f (wcGrad x w mu rho).1 mu) ∧
    (∃ f : ℝ → ℝ, (∀ r, 0 < r → r < 1 - 1 / 10 ^ 7 → wcNll x w mu r = some (f r)) ∧
      HasDerivAt f (wcGrad x w mu rho).2 rho) := by
  have h7 : (0 : ℝ) < 1 / 10 ^ 7 := by positivity
  have hpos : ∀ m r, 0 < r → r < 1 - 1 / 10 ^ 7 → ∀ xi : ℝ,
      0 < 1 + r ^ 2 - 2 * r * cos (xi - m) := fun m r a b xi =>
    wc_kernel_pos a.le (by linarith) _
  have hval : ∀ m r, 0 < r → r < 1 - 1 / 10 ^ 7 → wcNll x w m r
      = some (-(List.zipWith (fun xi wi => wi * (log (1 - r ^ 2) - log (2 * π)
        - log (1 + r ^ 2 - 2 * r * cos (xi - m)))) x w).sum) := by
    intro m r a b
    unfold wcNll
    rw [if_neg (not_not.mpr ⟨a.le, by linarith⟩)]
    simp only [wc_denom_clip a.le b]
  have hgrad : wcGrad x w mu rho =
      (-2 * rho * (List.zipWith (fun xi wi =>
        wi / (1 + rho ^ 2 - 2 * rho * cos (xi - mu)) * sin (xi - mu)) x w).sum,
       w.sum * (2 * rho / (1 - rho ^ 2)) + (List.zipWith (fun xi wi =>
        wi / (1 + rho ^ 2 - 2 * rho * cos (xi - mu)) * (2 * rho - 2 * cos (xi - mu))) x w).sum) := by
    unfold wcGrad
    simp only [wc_denom_clip h0.le h1]
    rw [max_eq_left]
    have : (1 : ℝ) / 10 ^ 15 ≤ 1 / 10 ^ 7 := by norm_num
    nlinarith
  rw [hgrad]
  have h1r : 0 < 1 - rho ^ 2 := by nlinarith
  refine ⟨⟨_, fun m => hval m rho h0 h1, ?_⟩, ⟨_, fun r a b => hval mu r a b, ?_⟩⟩
  · have hd := hasDerivAt_zipWith_sum (x := x) (w := w) (a := mu)
      (g := fun m xi wi => wi * (log (1 - rho ^ 2) - log (2 * π)
        - log (1 + rho ^ 2 - 2 * rho * cos (xi - m))))
      (g' := fun xi wi => 2 * rho * (wi / (1 + rho ^ 2 - 2 * rho * cos (xi - mu)) * sin (xi - mu)))
      (fun xi _ wi _ => by
        have h2 : HasDerivAt (fun m : ℝ => cos (xi - m)) (-sin (xi - mu) * -1) mu :=
          ((hasDerivAt_id mu).const_sub xi).cos
        have h3 := ((((h2.const_mul (2 * rho)).const_sub (1 + rho ^ 2)).log
          (hpos mu rho h0 h1 xi).ne').const_sub (log (1 - rho ^ 2) - log (2 * π))).const_mul wi
        refine h3.congr_deriv ?_
        ring)
    refine hd.neg.congr_deriv ?_
    rw [← zipWith_sum_mul]; ring
  · have hd := hasDerivAt_zipWith_sum (x := x) (w := w) (a := rho)
      (g := fun r xi wi => wi * (log (1 - r ^ 2) - log (2 * π)
        - log (1 + r ^ 2 - 2 * r * cos (xi - mu))))
      (g' := fun xi wi => wi * (-(2 * rho / (1 - rho ^ 2))
        - (2 * rho - 2 * cos (xi - mu)) / (1 + rho ^ 2 - 2 * rho * cos (xi - mu))))
      (fun xi _ wi _ => by
        have h2 : HasDerivAt (fun r : ℝ => 1 + r ^ 2 - 2 * r * cos (xi - mu))
            (2 * rho - 2 * 1 * cos (xi - mu)) rho := by
          have a := ((hasDerivAt_pow 2 rho).const_add 1)
          have b := (((hasDerivAt_id rho).const_mul 2).mul_const (cos (xi - mu)))
          exact (a.sub b).congr_deriv (by simp)
        have h4 : HasDerivAt (fun r : ℝ => 1 - r ^ 2) (-(2 * rho)) rho :=
          ((hasDerivAt_pow 2 rho).const_sub 1).congr_deriv (by simp)
        have h3 := (((h4.log h1r.ne').sub_const (log (2 * π))).sub
          (h2.log (hpos mu rho h0 h1 xi).ne')).const_mul wi
        refine h3.congr_deriv ?_
        ring)
    refine hd.neg.congr_deriv ?_
    have e := zipWith_sum_sub (x := x) (w := w) hl
      (f := fun xi => -((2 * rho - 2 * cos (xi - mu)) / (1 + rho ^ 2 - 2 * rho * cos (xi - mu))))
      (c := 2 * rho / (1 - rho ^ 2))
    have e1 : (List.zipWith (fun xi wi => wi * (-(2 * rho / (1 - rho ^ 2))
        - (2 * rho - 2 * cos (xi - mu)) / (1 + rho ^ 2 - 2 * rho * cos (xi - mu)))) x w).sum
      = (List.zipWith (fun xi wi => wi * (-((2 * rho - 2 * cos (xi - mu))
        / (1 + rho ^ 2 - 2 * rho * cos (xi - mu))) - 2 * rho / (1 - rho ^ 2))) x w).sum :=
      zipWith_sum_congr fun xi _ wi _ => by ring
    have e2 : (List.zipWith (fun xi wi => wi * (-((2 * rho - 2 * cos (xi - mu))
        / (1 + rho ^ 2 - 2 * rho * cos (xi - mu))))) x w).sum
      = -1 * (List.zipWith (fun xi wi => wi / (1 + rho ^ 2 - 2 * rho * cos (xi - mu))
        * (2 * rho - 2 * cos (xi - mu))) x w).sum := by
      rw [zipWith_sum_mul]
      exact zipWith_sum_congr fun xi _ wi _ => by ring
    rw [e1, e, e2]
    ring

/-! ## Non-vacuity -/

/-- C102 at `mu = 1`, `rho = 1/2`: half a turn. -/
example : volume.real {u | -π ≤ u ∧ u < π ∧ wcRvs u 0 1 (1 / 2) ≤ π} / (2 * π)
    = ∫ t in (0 : ℝ)..π,
      (1 - (1 / 2) ^ 2) / (2 * π * (1 + (1 / 2) ^ 2 - 2 * (1 / 2) * cos (t - 1))) :=
  (C102_wrapcauchy 0 (by norm_num) (by norm_num) pi_pos.le (by linarith [pi_pos])).2

/-- C101 for a concrete sample of three angles. -/
example : ∃ f : ℝ → ℝ, (∀ m, wcNll [0, 1, 2] [1, 1, 2] m (1 / 4) = some (f m)) ∧
    HasDerivAt f (wcGrad [0, 1, 2] [1, 1, 2] 3 (1 / 4)).1 3 :=
  (C101_wrapcauchy_gradient (x := [0, 1, 2]) (w := [1, 1, 2]) (rho := 1 / 4) (by simp) (by norm_num) (by norm_num)).1

end Verif
