import Verif.Lemmas.Descriptive
import Mathlib.Analysis.SpecialFunctions.Trigonometric.Bounds

/-!
# C13 - C15: trigonometric moments, shape statistics, variance and standard deviation
-/

set_option autoImplicit false

namespace Verif.Props

open Verif Verif.Spec Real

/-! ## C13 -/

/-- Moments are finite exactly for non-zero total weight and the raw one is the weighted average of
`exp(i p α)`. -/
theorem C13_moment_def (alpha w : List ℝ) (p : ℤ) (z : ℂ) :
    circMoment alpha w p none false = some z ↔ w.sum ≠ 0 ∧
      z = (List.zipWith (fun (a w : ℝ) => (w : ℂ) * Complex.exp ((p * a : ℝ) * Complex.I)) alpha w).sum
        / (w.sum : ℂ) := by
  rw [circMoment_raw]
  unfold moment expSum
  by_cases h : w.sum = 0 <;> simp [h, eq_comm]

/-- Every moment, about any angle, has modulus at most 1 (non-negative weights). -/
theorem C13_moment_norm_le_one (alpha w : List ℝ) (hl : alpha.length = w.length)
    (hw : ∀ x ∈ w, 0 ≤ x) (p : ℤ) (mean : Option ℝ) (centered : Bool) (z : ℂ)
    (h : circMoment alpha w p mean centered = some z) : ‖z‖ ≤ 1 := by
  have key : ∀ (m : ℝ) (c : Bool) (z : ℂ), circMoment alpha w p (some m) c = some z → ‖z‖ ≤ 1 := by
    intro m c z h
    rw [circMoment_some] at h
    split_ifs at h
    cases h
    rw [norm_mul, Complex.norm_exp_ofReal_mul_I, one_mul]
    exact norm_moment_le alpha w hw hl p
  cases mean with
  | some m => exact key m _ z h
  | none =>
    cases centered with
    | false => exact key 0 false z h
    | true =>
      rw [circMoment_centered] at h
      obtain ⟨m, _, h⟩ := Option.bind_eq_some_iff.1 h
      exact key m _ z h

/-- Rotation by `t` multiplies the `p`-th raw moment by `exp(i p t)`. -/
theorem C13_moment_rotate (alpha w : List ℝ) (p : ℤ) (t : ℝ) :
    circMoment (alpha.map (· + t)) w p none false
      = (circMoment alpha w p none false).map (Complex.exp ((p * t : ℝ) * Complex.I) * ·) := by
  rw [circMoment_raw, circMoment_raw, moment_rotate]
  split_ifs <;> rfl

/-- Reflection conjugates it. -/
theorem C13_moment_reflect (alpha w : List ℝ) (p : ℤ) :
    circMoment (alpha.map (fun a => -a)) w p none false
      = (circMoment alpha w p none false).map (starRingEnd ℂ) := by
  rw [circMoment_raw, circMoment_raw, moment_reflect]
  split_ifs <;> rfl

/-- The moment about `m` is `exp(-i p m)` times the raw moment. -/
theorem C13_moment_about (alpha w : List ℝ) (p : ℤ) (m : ℝ) (c : Bool) :
    circMoment alpha w p (some m) c
      = (circMoment alpha w p none false).map (Complex.exp ((-(p * m) : ℝ) * Complex.I) * ·) := by
  rw [circMoment_some, circMoment_raw]
  split_ifs <;> rfl

/-- The centred moment is the moment about `circ_mean` (`nan` when that is `nan`). -/
theorem C13_moment_centered (alpha w : List ℝ) (p : ℤ) :
    (circMean alpha w = none → circMoment alpha w p none true = none) ∧
    ∀ m, circMean alpha w = some m →
      circMoment alpha w p none true = circMoment alpha w p (some m) false := by
  rw [circMoment_centered]
  constructor
  · intro h; rw [h]; rfl
  · intro m h; rw [h]; rfl

/-- The first centred moment is real and equals the resultant length. -/
theorem C13_first_centered_moment (alpha w : List ℝ) (m : ℝ) (h : circMean alpha w = some m) :
    ∃ r : ℝ, circR alpha w = some r ∧ circMoment alpha w 1 none true = some (r : ℂ) := by
  rw [(C13_moment_centered alpha w 1).2 m h, circMoment_some]
  rw [circMean_eq] at h
  split_ifs at h with hc
  push Not at hc
  simp only [Option.some.injEq] at h
  refine ⟨‖moment alpha w 1‖, by rw [circR_eq, if_neg hc.1], ?_⟩
  rw [if_neg hc.1]
  congr 1
  have := polar_angmod (moment alpha w 1)
  rw [h] at this
  conv_lhs => rw [this]
  rw [mul_left_comm, ← Complex.exp_add]
  push_cast
  rw [show -(1 * (m : ℂ)) * Complex.I + m * Complex.I = 0 by ring]
  simp

/-- `convert_moment` is the polar form: `mp = ρ exp(iμ)`, `ρ ≥ 0`, `μ ∈ [0,2π)`. -/
theorem C13_convertMoment_polar (z : ℂ) :
    z = ((convertMoment z).2 : ℂ) * Complex.exp (((convertMoment z).1 : ℝ) * Complex.I) ∧
    0 ≤ (convertMoment z).2 ∧ 0 ≤ (convertMoment z).1 ∧ (convertMoment z).1 < 2 * π :=
  ⟨polar_angmod z, norm_nonneg _, angmod2pi_nonneg _, angmod2pi_lt _⟩

example : ∃ z, circMoment [0, 1] [2, 3] 2 none false = some z :=
  ⟨_, (C13_moment_def _ _ _ _).2 ⟨by norm_num, rfl⟩⟩

/-! ## C14 -/

private lemma skew_num (z1 z2 : ℂ) :
    (convertMoment z2).2 * sin ((convertMoment z2).1 - 2 * (convertMoment z1).1)
      = (z2 * Complex.exp (((-2 * (convertMoment z1).1 : ℝ)) * Complex.I)).im ∧
    (convertMoment z2).2 * cos ((convertMoment z2).1 - 2 * (convertMoment z1).1)
      = (z2 * Complex.exp (((-2 * (convertMoment z1).1 : ℝ)) * Complex.I)).re := by
  have h := (C13_convertMoment_polar z2).1
  have e : z2 * Complex.exp (((-2 * (convertMoment z1).1 : ℝ)) * Complex.I)
      = ((convertMoment z2).2 : ℂ) * Complex.exp
        (((convertMoment z2).1 - 2 * (convertMoment z1).1 : ℝ) * Complex.I) := by
    conv_lhs => rw [h]
    rw [mul_assoc, ← Complex.exp_add]
    congr 2
    push_cast; ring
  rw [e, Complex.re_ofReal_mul, Complex.im_ofReal_mul, exp_re, exp_im]
  exact ⟨rfl, rfl⟩

private lemma exp_two_of_sameDir {a b : ℝ} (h : SameDir a b) :
    Complex.exp (((-2 * a : ℝ)) * Complex.I) = Complex.exp (((-2 * b : ℝ)) * Complex.I) := by
  have := exp_eq_of_sameDir h (-2)
  push_cast at this ⊢; exact this

private lemma convert_dir {z : ℂ} {r m : ℝ} (hr : 0 < r)
    (h : z = (r : ℂ) * Complex.exp ((m : ℝ) * Complex.I)) : SameDir (convertMoment z).1 m :=
  (angmod2pi_cong _).trans (arg_sameDir_of_polar hr h)

private lemma num_rotate (z1 z2 : ℂ) (hz : z1 ≠ 0) (t : ℝ) :
    (Complex.exp ((((2 : ℤ) : ℝ) * t : ℝ) * Complex.I) * z2) * Complex.exp (((-2 *
      (convertMoment (Complex.exp ((((1 : ℤ) : ℝ) * t : ℝ) * Complex.I) * z1)).1 : ℝ)) * Complex.I)
    = z2 * Complex.exp (((-2 * (convertMoment z1).1 : ℝ)) * Complex.I) := by
  have hd : SameDir (convertMoment (Complex.exp ((((1 : ℤ) : ℝ) * t : ℝ) * Complex.I) * z1)).1
      ((convertMoment z1).1 + t) := by
    apply convert_dir (norm_pos_iff.2 hz)
    conv_lhs => rw [(C13_convertMoment_polar z1).1]
    rw [mul_left_comm, ← Complex.exp_add]
    simp only [convertMoment]
    congr 2
    push_cast; ring
  rw [exp_two_of_sameDir hd, mul_right_comm, ← Complex.exp_add, mul_comm]
  congr 2
  push_cast; ring

private lemma num_reflect (z1 z2 : ℂ) (hz : z1 ≠ 0) :
    (starRingEnd ℂ z2) * Complex.exp (((-2 *
      (convertMoment (starRingEnd ℂ z1)).1 : ℝ)) * Complex.I)
    = starRingEnd ℂ (z2 * Complex.exp (((-2 * (convertMoment z1).1 : ℝ)) * Complex.I)) := by
  have hd : SameDir (convertMoment (starRingEnd ℂ z1)).1 (-(convertMoment z1).1) := by
    apply convert_dir (norm_pos_iff.2 hz)
    conv_lhs => rw [(C13_convertMoment_polar z1).1]
    rw [map_mul, Complex.conj_ofReal, ← Complex.exp_conj, map_mul, Complex.conj_ofReal,
      Complex.conj_I]
    simp only [convertMoment]
    congr 2
    push_cast; ring
  rw [exp_two_of_sameDir hd, map_mul]
  congr 1
  rw [← Complex.exp_conj]
  congr 1
  rw [map_mul, Complex.conj_ofReal, Complex.conj_I]
  push_cast; ring

private lemma skewness_eq (alpha w : List ℝ) : circSkewness alpha w = if w.sum = 0 then none else
    pydiv (moment alpha w 2 * Complex.exp (((-2 * (convertMoment (moment alpha w 1)).1 : ℝ)) *
      Complex.I)).im ((1 - ‖moment alpha w 1‖) ^ (1.5 : ℝ)) := by
  unfold circSkewness
  rw [circMoment_raw, circMoment_raw]
  by_cases h : w.sum = 0
  · simp [h]
  · rw [if_neg h, if_neg h, if_neg h, ← (skew_num _ _).1]; rfl

private lemma kurtosis_eq (alpha w : List ℝ) : circKurtosis alpha w = if w.sum = 0 then none else
    pydiv ((moment alpha w 2 * Complex.exp (((-2 * (convertMoment (moment alpha w 1)).1 : ℝ)) *
      Complex.I)).re - ‖moment alpha w 1‖ ^ 4) ((1 - ‖moment alpha w 1‖) ^ 2) := by
  unfold circKurtosis
  rw [circMoment_raw, circMoment_raw]
  by_cases h : w.sum = 0
  · simp [h]
  · rw [if_neg h, if_neg h, if_neg h, ← (skew_num _ _).2]; rfl

private lemma dispersion_eq (alpha w : List ℝ) (mean : Option ℝ) :
    circDispersion alpha w mean = if w.sum = 0 then none else
    pydiv (1 - ‖moment alpha w 2‖) (2 * ‖moment alpha w 1‖ ^ 2) := by
  unfold circDispersion
  cases mean with
  | none =>
    rw [circMoment_raw, circMoment_raw]
    split_ifs <;> rfl
  | some m =>
    rw [circMoment_some, circMoment_some]
    split_ifs
    · rfl
    · show pydiv (1 - ‖_‖) (2 * ‖_‖ ^ 2) = _
      rw [norm_mul, norm_mul, Complex.norm_exp_ofReal_mul_I, Complex.norm_exp_ofReal_mul_I]
      simp

private lemma moment_ne_zero {alpha w : List ℝ} {r : ℝ} (h : circR alpha w = some r) (hr : r ≠ 0) :
    moment alpha w 1 ≠ 0 := by
  rw [circR_eq] at h
  split_ifs at h
  simp only [Option.some.injEq] at h
  intro h0
  rw [h0, norm_zero] at h
  exact hr h.symm

/-- Dispersion: unchanged by rotation and reflection, and independent of the `mean` argument. -/
theorem C14_dispersion_invariant (alpha w : List ℝ) (mean mean' : Option ℝ) (t : ℝ) :
    circDispersion (alpha.map (· + t)) w mean = circDispersion alpha w mean' ∧
    circDispersion (alpha.map (fun a => -a)) w mean = circDispersion alpha w mean' := by
  simp only [dispersion_eq, moment_rotate, moment_reflect, norm_mul, Complex.norm_exp_ofReal_mul_I,
    one_mul, RCLike.norm_conj, and_self]

/-- Skewness and kurtosis are unchanged by rotation when the resultant length is not 0. -/
theorem C14_shape_rotate (alpha w : List ℝ) (t r : ℝ) (hr : circR alpha w = some r) (h0 : r ≠ 0) :
    circSkewness (alpha.map (· + t)) w = circSkewness alpha w ∧
    circKurtosis (alpha.map (· + t)) w = circKurtosis alpha w := by
  have hz := moment_ne_zero hr h0
  simp only [skewness_eq, kurtosis_eq, moment_rotate, num_rotate _ _ hz, norm_mul,
    Complex.norm_exp_ofReal_mul_I, one_mul, and_self]

/-- Reflection negates skewness and keeps kurtosis when the resultant length is not 0. -/
theorem C14_shape_reflect (alpha w : List ℝ) (r : ℝ) (hr : circR alpha w = some r) (h0 : r ≠ 0) :
    circSkewness (alpha.map (fun a => -a)) w = (circSkewness alpha w).map (fun s => -s) ∧
    circKurtosis (alpha.map (fun a => -a)) w = circKurtosis alpha w := by
  have hz := moment_ne_zero hr h0
  simp only [skewness_eq, kurtosis_eq, moment_reflect, num_reflect _ _ hz, RCLike.norm_conj,
    Complex.conj_re, Complex.conj_im, and_true]
  split_ifs
  · rfl
  · unfold pydiv
    split_ifs
    · rfl
    · simp only [Option.map_some, neg_div]

/-- A sample that is its own mirror image about some axis `t` (up to order and whole turns, with
weights) has skewness 0 whenever it is a number and the resultant length is not 0. -/
theorem C14_skewness_symmetric (alpha w beta : List ℝ) (t : ℝ) (hl : alpha.length = w.length)
    (hm : List.Forall₂ SameDir (alpha.map (fun a => 2 * t - a)) beta)
    (hp : (beta.zip w).Perm (alpha.zip w))
    (r s : ℝ) (hr : circR alpha w = some r) (h0 : r ≠ 0) (hs : circSkewness alpha w = some s) :
    s = 0 := by
  have hbl : beta.length = w.length := by rw [← hm.length_eq]; simpa using hl
  have hmom : ∀ p, moment ((alpha.map (fun a => -a)).map (· + 2 * t)) w p = moment alpha w p := by
    intro p
    rw [← (moment_perm hbl hl hp p).1, ← moment_congr hm]
    rw [List.map_map]
    congr 1
    apply List.map_congr_left
    intro a _
    simp only [Function.comp]; ring
  have e1 : circSkewness ((alpha.map (fun a => -a)).map (· + 2 * t)) w = circSkewness alpha w := by
    rw [skewness_eq, skewness_eq, hmom, hmom]
  have hr' : circR (alpha.map (fun a => -a)) w = some r := by
    rw [← hr, circR_eq, circR_eq, moment_reflect, RCLike.norm_conj]
  rw [(C14_shape_rotate _ w (2 * t) r hr' h0).1, (C14_shape_reflect alpha w r hr h0).1, hs] at e1
  simp only [Option.map_some, Option.some.injEq] at e1
  linarith

/-- With resultant length 0 the code's skewness and kurtosis do depend on the orientation: for two
opposite directions kurtosis is 1 at orientation 0 and 0 at orientation `π/4`. -/
theorem C14_shape_rotate_fails_at_zero :
    circKurtosis [0, π] [1, 1] = some 1 ∧
    circKurtosis ([0, π].map (· + π / 4)) [1, 1] = some 0 ∧
    circSkewness [0, π] [1, 1] = some 0 ∧
    circSkewness ([0, π].map (· + π / 4)) [1, 1] = some 1 := by
  have h1 : moment [0, π] [1, 1] 1 = 0 := by simp [moment, expSum]
  have h2 : moment [0, π] [1, 1] 2 = 1 := by
    have : Complex.exp (2 * (π * Complex.I)) = 1 := by
      rw [← mul_assoc]; exact Complex.exp_two_pi_mul_I
    simp [moment, expSum, mul_assoc, this]
  have hc : (convertMoment 0).1 = 0 := by
    simp only [convertMoment, Complex.arg_zero]
    exact angmod2pi_eq_self le_rfl two_pi_pos
  have hne : ((1 : ℝ) + (1 + 0)) ≠ 0 := by norm_num
  have he : Complex.exp ((((2 : ℤ) : ℝ) * (π / 4) : ℝ) * Complex.I) = Complex.I := by
    have : ((((2 : ℤ) : ℝ) * (π / 4) : ℝ) : ℂ) * Complex.I = (π : ℂ) / 2 * Complex.I := by
      push_cast; ring
    rw [this, Complex.exp_pi_div_two_mul_I]
  refine ⟨?_, ?_, ?_, ?_⟩
  · simp [kurtosis_eq, h1, h2, hc, pydiv]
  · rw [kurtosis_eq, moment_rotate, moment_rotate, h1, h2, he]
    simp [hc, pydiv]
  · simp [skewness_eq, h1, h2, hc, pydiv]
  · rw [skewness_eq, moment_rotate, moment_rotate, h1, h2, he]
    simp [hc, pydiv]

/-- The hypotheses of the symmetry theorem are met by `{-1, 0, 1}` with symmetric weights. -/
example : List.Forall₂ SameDir ([-1, 0, 1].map (fun a : ℝ => 2 * 0 - a)) [1, 0, -1] ∧
    (([1, 0, -1] : List ℝ).zip ([2, 5, 2] : List ℝ)).Perm (([-1, 0, 1] : List ℝ).zip [2, 5, 2]) := by
  constructor
  · refine .cons ⟨0, by norm_num⟩ (.cons ⟨0, by norm_num⟩ (.cons ⟨0, by norm_num⟩ .nil))
  · simp only [List.zip_cons_cons, List.zip_nil_left]
    exact (List.reverse_perm [((1 : ℝ), (2 : ℝ)), (0, 5), (-1, 2)]).symm

/-! ## C15 -/

/-- Variances from the resultant length without binning. -/
theorem C15_var_of_r (r : ℝ) :
    circVar none none (some r) none = .ok (some (1 - r)) ∧
    angularVar none none (some r) none = .ok (some (2 * (1 - r))) :=
  ⟨rfl, rfl⟩

/-- Unweighted data: `1 - circ_r`, between 0 and 1 (so the angular variance is in `[0,2]`). -/
theorem C15_var_of_data (alpha : List ℝ) (hne : alpha ≠ []) :
    ∃ r v, circR alpha (ones alpha) = some r ∧ circVar (some alpha) none none none = .ok (some v) ∧
      angularVar (some alpha) none none none = .ok (some (2 * v)) ∧
      v = 1 - r ∧ 0 ≤ v ∧ v ≤ 1 := by
  have hs : (ones alpha).sum ≠ 0 := by
    rw [sum_ones]; exact_mod_cast (List.length_pos_of_ne_nil hne).ne'
  have hr : circR alpha (ones alpha) = some ‖moment alpha (ones alpha) 1‖ := by
    rw [circR_eq, if_neg hs]
  have hle := norm_moment_le alpha (ones alpha) (by simp [ones]) (length_ones _).symm 1
  have hv : circVar (some alpha) none none none
      = .ok (some (1 - ‖moment alpha (ones alpha) 1‖)) := by
    show Except.ok ((circR alpha (ones alpha)).bind _) = _
    rw [hr]; rfl
  refine ⟨_, _, hr, hv, ?_, rfl, by linarith, by linarith [norm_nonneg (moment alpha (ones alpha) 1)]⟩
  unfold angularVar
  rw [hv]; rfl

/-- `angular_std = sqrt(2(1-r))` for `r ≤ 1`. -/
theorem C15_angularStd_of_r (r : ℝ) (h : r ≤ 1) :
    angularStd none none (some r) none = .ok (some (sqrt (2 * (1 - r)))) := by
  show Except.ok (pysqrt (2 * (1 - r))) = _
  unfold pysqrt
  rw [if_neg (by linarith)]

/-- `circ_std` for `0 < r ≤ 1`: the number `s ≥ 0` with `r = exp(-s²/2)`; non-finite for `r ≤ 0`. -/
theorem C15_circStd_of_r (r : ℝ) :
    (0 < r → r ≤ 1 → ∃ s, circStd none none (some r) none = .ok (some s) ∧
      s = sqrt (-2 * log r) ∧ 0 ≤ s ∧ r = exp (-s ^ 2 / 2)) ∧
    (r ≤ 0 → circStd none none (some r) none = .ok none) := by
  have hval : circStd none none (some r) none
      = .ok ((pylog (1 - (1 - r))).bind fun l => pysqrt (-2 * l)) := rfl
  rw [hval, sub_sub_cancel]
  constructor
  · intro h0 h1
    have hl : log r ≤ 0 := log_nonpos h0.le h1
    refine ⟨sqrt (-2 * log r), ?_, rfl, sqrt_nonneg _, ?_⟩
    · unfold pylog pysqrt
      rw [if_neg (not_le.2 h0)]
      simp only [Option.bind_some]
      rw [if_neg (by linarith)]
    · rw [sq_sqrt (by linarith)]
      rw [show -(-2 * log r) / 2 = log r by ring, exp_log h0]
  · intro h
    unfold pylog
    rw [if_pos h]; rfl

/-- `circ_std` is strictly decreasing in the resultant length on `(0,1]`. -/
theorem C15_circStd_antitone (r r' s s' : ℝ) (h0 : 0 < r) (hrr : r < r') (h1 : r' ≤ 1)
    (hs : circStd none none (some r) none = .ok (some s))
    (hs' : circStd none none (some r') none = .ok (some s')) : s' < s := by
  obtain ⟨t, ht, e, _, _⟩ := (C15_circStd_of_r r).1 h0 (by linarith)
  obtain ⟨t', ht', e', _, _⟩ := (C15_circStd_of_r r').1 (by linarith) h1
  rw [ht] at hs; rw [ht'] at hs'
  simp only [Except.ok.injEq, Option.some.injEq] at hs hs'
  subst hs hs'
  rw [e, e']
  have : log r < log r' := log_lt_log h0 hrr
  exact sqrt_lt_sqrt (by linarith [log_nonpos (by linarith : 0 ≤ r') h1]) (by linarith)

private lemma bin_factor {b : ℝ} (h0 : 0 < b) (h1 : b < 2 * π) :
    0 < sin (b / 2) ∧ 1 < b / (2 * sin (b / 2)) := by
  have hs : 0 < sin (b / 2) := sin_pos_of_pos_of_lt_pi (by linarith) (by linarith)
  refine ⟨hs, ?_⟩
  rw [lt_div_iff₀ (by linarith)]
  have := Real.sin_lt (by linarith : 0 < b / 2)
  linarith

/-- Binning correction: for `0 < b < 2π` the resultant is multiplied by `b/(2 sin(b/2)) > 1`. -/
theorem C15_bin_correction (r b : ℝ) (h0 : 0 < b) (h1 : b < 2 * π) :
    ∃ f, circVar none none (some r) (some b) = .ok (some (1 - r * f)) ∧
      f = b / (2 * sin (b / 2)) ∧ 1 < f := by
  obtain ⟨hs, hf⟩ := bin_factor h0 h1
  refine ⟨_, ?_, rfl, hf⟩
  show Except.ok ((correctedR r (some b)).bind _) = _
  have h2 : (2 * sin (b / 2)) ≠ 0 := by linarith
  simp [correctedR, pydiv, h0.ne', hs.ne']


/-- A bin width of 0 is no correction. -/
theorem C15_bin_zero (r : ℝ) : circVar none none (some r) (some 0) = .ok (some (1 - r)) := by
  show Except.ok ((correctedR r (some 0)).bind _) = _
  simp [correctedR]

/-- The corrected variance leaves `[0,1]`: when all data fall in one bin (`r = 1`) it is negative
and `angular_std` and `circ_std` are `nan`. -/
theorem C15_bin_correction_negative (b : ℝ) (h0 : 0 < b) (h1 : b < 2 * π) :
    (∃ v, circVar none none (some 1) (some b) = .ok (some v) ∧ v < 0) ∧
    angularStd none none (some 1) (some b) = .ok none ∧
    circStd none none (some 1) (some b) = .ok none := by
  obtain ⟨f, hv, _, hf⟩ := C15_bin_correction 1 b h0 h1
  refine ⟨⟨_, hv, by linarith⟩, ?_, ?_⟩
  · unfold angularStd angularVar
    rw [hv]
    show Except.ok (pysqrt (2 * (1 - 1 * f))) = _
    unfold pysqrt
    rw [if_pos (by linarith)]
  · unfold circStd
    rw [hv]
    show Except.ok ((pylog (1 - (1 - 1 * f))).bind fun l => pysqrt (-2 * l)) = _
    have hl : 0 < log f := log_pos hf
    unfold pylog pysqrt
    rw [if_neg (by linarith)]
    simp only [Option.bind_some, sub_sub_cancel, one_mul]
    rw [if_pos (by linarith)]

/-- Errors: no data and no `r`; unequal weights without data to find the bin width. -/
theorem C15_errors (w0 w1 : ℝ) (ws : List ℝ) (r : ℝ) (hne : w1 ≠ w0) (w : Option (List ℝ))
    (b : Option ℝ) :
    circVar none w none b = .error .valueError ∧
    circVar none (some (w0 :: w1 :: ws)) (some r) none = .error .valueError := by
  constructor
  · rfl
  · have : effectiveBin none (some (w0 :: w1 :: ws)) none = .error .valueError := by
      simp [effectiveBin, hne]
    unfold circVar
    rw [this]; rfl

/-- Equal weights, whatever they are, mean no correction. -/
theorem C15_equal_weights (alpha : List ℝ) (c : ℝ) (n : ℕ) (r : ℝ)
    (hr : circR alpha (List.replicate (n + 1) c) = some r) :
    circVar (some alpha) (some (List.replicate (n + 1) c)) none none = .ok (some (1 - r)) := by
  have hb : effectiveBin (some alpha) (some (List.replicate (n + 1) c)) none = .ok none := by
    simp [effectiveBin, List.replicate_succ]
  unfold circVar
  rw [hb]
  show Except.ok ((circR alpha (List.replicate (n + 1) c)).bind _) = _
  rw [hr]; rfl

example : circStd none none (some 1) none = .ok (some 0) := by
  obtain ⟨s, hs, e, _, _⟩ := (C15_circStd_of_r 1).1 one_pos le_rfl
  rw [hs, e]; simp

end Verif.Props
