import Verif.Model.Interval
import Verif.Props.Moments
import Verif.Props.Utils
import Mathlib.Analysis.SpecialFunctions.Trigonometric.Bounds
import Mathlib.Analysis.Complex.ExponentialBounds

/-!
# C20, C21: confidence intervals of the mean (dispersion and approximate method)
-/

set_option autoImplicit false

namespace Verif.Props

open Verif Verif.Spec Real

private lemma swap_around {m d : ℝ} (h0 : 0 ≤ d) (h1 : d < π) :
    swapIfOutside m (m - d) (m + d) = (m - d, m + d) := by
  unfold swapIfOutside
  rw [if_pos]
  rw [C06_isWithin_iff_onArc]
  exact ⟨2 * d, d, by linarith, by linarith, ⟨0, by push_cast; ring⟩, h0, by linarith,
    ⟨0, by push_cast; ring⟩⟩

private lemma around {m d : ℝ} (h0 : 0 ≤ d) (h1 : d < π) :
    IsIntervalAround m d (angmod2pi (m - d)) (angmod2pi (m + d)) where
  lb_mem := ⟨angmod2pi_nonneg _, angmod2pi_lt _⟩
  ub_mem := ⟨angmod2pi_nonneg _, angmod2pi_lt _⟩
  lower := angmod2pi_cong _
  upper := angmod2pi_cong _
  contains := by
    obtain ⟨k, hk⟩ := angmod2pi_cong (m - d)
    obtain ⟨l, hl⟩ := angmod2pi_cong (m + d)
    refine ⟨2 * d, d, by linarith, by linarith, ⟨l - k, ?_⟩, h0, by linarith, ⟨-k, ?_⟩⟩
    · rw [hl, hk]; push_cast; ring
    · rw [hk]; push_cast; ring

/-- Fewer than 25 observations are refused by the dispersion method. -/
theorem C20_dispersion_small_n (alpha w : List ℝ) (mean : Option ℝ) (ci chi z : ℝ)
    (draws : List (List ℝ)) (hn : w.sum < 25) :
    circMeanCi (some alpha) (some w) mean none none ci chi z draws "dispersion"
      = .error .valueError := by
  simp [circMeanCi, circMeanCiRaw, ciDispersion, hn, Except.map]

/-- With at least 25 observations, a non-zero resultant and a sine below 1, the dispersion method
returns the interval around the mean whose half width has sine `z √(δ/n)`, and this interval
contains the mean. -/
theorem C20_dispersion_interval (alpha w : List ℝ) (hlen : alpha.length = w.length)
    (hw : ∀ x ∈ w, 0 ≤ x) (mean : Option ℝ) (m ci chi z : ℝ) (draws : List (List ℝ))
    (hm : mean = some m ∨ mean = none ∧ circMean alpha w = some m)
    (hn : 25 ≤ w.sum) (hr : moment alpha w 1 ≠ 0) (hz : 0 ≤ z)
    (hq : z * sqrt ((1 - ‖moment alpha w 2‖) / (2 * ‖moment alpha w 1‖ ^ 2) / w.sum) < 1) :
    ∃ lb ub d : ℝ,
      circMeanCi (some alpha) (some w) mean none none ci chi z draws "dispersion"
        = .ok (some (lb, ub)) ∧
      0 ≤ d ∧ d < π / 2 ∧
      sin d = z * sqrt ((1 - ‖moment alpha w 2‖) / (2 * ‖moment alpha w 1‖ ^ 2) / w.sum) ∧
      IsIntervalAround m d lb ub := by
  set q := z * sqrt ((1 - ‖moment alpha w 2‖) / (2 * ‖moment alpha w 1‖ ^ 2) / w.sum) with hqd
  have hq0 : 0 ≤ q := mul_nonneg hz (sqrt_nonneg _)
  have hd0 : 0 ≤ arcsin q := arcsin_nonneg.2 hq0
  have hd1 : arcsin q < π / 2 := arcsin_lt_pi_div_two.2 hq
  have hsum : w.sum ≠ 0 := by linarith
  have hpi := pi_pos
  refine ⟨angmod2pi (m - arcsin q), angmod2pi (m + arcsin q), arcsin q, ?_, hd0, hd1,
    sin_arcsin (by linarith) hq.le, around hd0 (by linarith)⟩
  have hdisp : circDispersion alpha w none = some
      ((1 - ‖moment alpha w 2‖) / (2 * ‖moment alpha w 1‖ ^ 2)) := by
    unfold circDispersion
    simp only [circMoment_raw, if_neg hsum]
    show pydiv _ _ = _
    rw [pydiv, if_neg]
    have := norm_pos_iff.2 hr
    positivity
  have hnn : 0 ≤ (1 - ‖moment alpha w 2‖) / (2 * ‖moment alpha w 1‖ ^ 2) / w.sum := by
    have := norm_moment_le alpha w hw hlen 2
    apply div_nonneg (div_nonneg (by linarith) (by positivity)) (by linarith)
  have hci : ciDispersion alpha w mean z
      = .ok (some (m - arcsin q, m + arcsin q)) := by
    have hmean : ciDispersion alpha w mean z = ciDispersion alpha w (some m) z := by
      rcases hm with rfl | ⟨rfl, h⟩
      · rfl
      · simp only [ciDispersion, h]
    rw [hmean]
    unfold ciDispersion
    simp only [if_neg (not_lt.2 hn), hdisp, dispersionInner, pydiv, if_neg hsum,
      Option.bind_some, pysqrt, if_neg (not_lt.2 hnn), Option.map_some]
    rw [mul_comm _ z, ← hqd, if_neg (not_le.2 hq)]
    simp only [pyarcsin]
    rw [if_neg (by push Not; constructor <;> linarith)]
    simp [intervalAround, swap_around hd0 (by linarith : arcsin q < π)]
  simp [circMeanCi, circMeanCiRaw, hci, Except.map]

/-- Over-dispersed data are refused: the sine would reach 1, or the resultant vanishes while the
doubled angles do not all coincide. -/
theorem C20_dispersion_overdispersed (alpha w : List ℝ) (hlen : alpha.length = w.length)
    (hw : ∀ x ∈ w, 0 ≤ x) (mean : Option ℝ) (ci chi z : ℝ) (draws : List (List ℝ))
    (hn : 25 ≤ w.sum)
    (hq : (moment alpha w 1 ≠ 0 ∧ 1 ≤ z *
        sqrt ((1 - ‖moment alpha w 2‖) / (2 * ‖moment alpha w 1‖ ^ 2) / w.sum)) ∨
      (moment alpha w 1 = 0 ∧ ‖moment alpha w 2‖ < 1 ∧ 0 < z)) :
    circMeanCi (some alpha) (some w) mean none none ci chi z draws "dispersion"
      = .error .valueError := by
  have hsum : w.sum ≠ 0 := by linarith
  have hci : ciDispersion alpha w mean z = .error .valueError := by
    rcases hq with ⟨hr, hq⟩ | ⟨hr, h2, hz⟩
    · have hdisp : circDispersion alpha w none = some
          ((1 - ‖moment alpha w 2‖) / (2 * ‖moment alpha w 1‖ ^ 2)) := by
        unfold circDispersion
        simp only [circMoment_raw, if_neg hsum]
        show pydiv _ _ = _
        rw [pydiv, if_neg]
        have := norm_pos_iff.2 hr
        positivity
      have hnn : 0 ≤ (1 - ‖moment alpha w 2‖) / (2 * ‖moment alpha w 1‖ ^ 2) / w.sum := by
        have := norm_moment_le alpha w hw hlen 2
        apply div_nonneg (div_nonneg (by linarith) (by positivity)) (by linarith)
      unfold ciDispersion
      simp only [if_neg (not_lt.2 hn), hdisp, dispersionInner, pydiv, if_neg hsum,
        Option.bind_some, pysqrt, if_neg (not_lt.2 hnn), Option.map_some]
      rw [mul_comm _ z, if_pos hq]
    · have hdisp : circDispersion alpha w none = none := by
        unfold circDispersion
        simp only [circMoment_raw, if_neg hsum]
        show pydiv _ _ = _
        simp [pydiv, hr]
      have hinf : dispersionIsInf alpha w = true := by
        unfold dispersionIsInf
        simp only [circMoment_raw, if_neg hsum]
        simp [hr, h2]
      unfold ciDispersion
      simp only [if_neg (not_lt.2 hn), hdisp]
      rw [if_pos ⟨hinf, hz⟩]
  simp [circMeanCi, circMeanCiRaw, hci, Except.map]

/-- A sample meeting the hypotheses of `C20_dispersion_interval`: 25 observations at 0° and 25 at
90°, quantile 1; the mean (45°) is defined and the half width is positive. -/
example : (25 : ℝ) ≤ ([25, 25] : List ℝ).sum ∧ moment [0, π / 2] [25, 25] 1 ≠ 0 ∧
    (1 : ℝ) * sqrt ((1 - ‖moment [0, π / 2] [25, 25] 2‖) /
      (2 * ‖moment [0, π / 2] [25, 25] 1‖ ^ 2) / ([25, 25] : List ℝ).sum) < 1 ∧
    circMean [0, π / 2] [25, 25] = some (angmod2pi (Complex.arg (moment [0, π / 2] [25, 25] 1))) := by
  have e1 : moment [0, π / 2] [25, 25] 1 = (1 / 2 : ℝ) + (1 / 2 : ℝ) * Complex.I := by
    have : Complex.exp (((π / 2 : ℝ) : ℂ) * Complex.I) = Complex.I := by
      rw [Complex.exp_mul_I, ← Complex.ofReal_cos, ← Complex.ofReal_sin]; simp
    simp only [moment, expSum, List.zipWith_cons_cons, List.zipWith_nil_right, List.sum_cons,
      List.sum_nil, Int.cast_one, one_mul, this]
    simp
    field_simp
    ring
  have e2 : moment [0, π / 2] [25, 25] 2 = 0 := by
    have : Complex.exp (((((2 : ℤ) : ℝ) * (π / 2) : ℝ) : ℂ) * Complex.I) = -1 := by
      rw [show (((2 : ℤ) : ℝ) * (π / 2) : ℝ) = π by push_cast; ring]
      exact Complex.exp_pi_mul_I
    simp only [moment, expSum, List.zipWith_cons_cons, List.zipWith_nil_right, List.sum_cons,
      List.sum_nil, this]
    simp
  have n1 : ‖moment [0, π / 2] [25, 25] 1‖ ^ 2 = 1 / 2 := by
    rw [← Complex.normSq_eq_norm_sq, e1]
    simp [Complex.normSq_apply]; norm_num
  have hne : moment [0, π / 2] [25, 25] 1 ≠ 0 := by
    intro h; rw [h] at n1; norm_num at n1
  refine ⟨by norm_num, hne, ?_, ?_⟩
  · rw [n1, e2]
    rw [one_mul, sqrt_lt' one_pos]
    norm_num
  · rw [circMean_eq, if_neg]
    push Not
    refine ⟨by norm_num, ?_⟩
    by_contra hc
    push Not at hc
    have := norm_nonneg (moment [0, π / 2] [25, 25] 1)
    nlinarith

/-- Sample size below 8 or a resultant below `√(χ/2n)` is refused by the approximate method. -/
theorem C21_approximate_refused (m r n ci chi z : ℝ) (alpha w : Option (List ℝ))
    (draws : List (List ℝ)) (h : n < 8 ∨ r < sqrt (chi / (2 * n))) :
    circMeanCi alpha w (some m) (some r) (some n) ci chi z draws "approximate"
      = .error .valueError := by
  have : ciApproximate alpha w (some m) (some r) (some n) chi = .error .valueError := by
    simp only [ciApproximate, ciApproximateOf]
    rcases h with h | h
    · rw [if_pos (by linarith)]
    · split_ifs <;> rfl
  simp [circMeanCi, circMeanCiRaw, this, Except.map]

/-- `r ≤ 0.9`: the accepted cases always give a proper interval around the mean, of half width in
`[0, π/2]`, whose cosine is the published formula. -/
theorem C21_approximate_moderate (m r n ci chi z : ℝ) (alpha w : Option (List ℝ))
    (draws : List (List ℝ)) (hn : 8 ≤ n) (hchi : 0 < chi) (hr : sqrt (chi / (2 * n)) ≤ r)
    (hr9 : r ≤ 0.9) :
    ∃ lb ub d : ℝ,
      circMeanCi alpha w (some m) (some r) (some n) ci chi z draws "approximate"
        = .ok (some (lb, ub)) ∧
      0 ≤ d ∧ d ≤ π / 2 ∧
      cos d = sqrt (2 * n * (2 * (n * r) ^ 2 - n * chi) / (4 * n - chi)) / (n * r) ∧
      IsIntervalAround m d lb ub := by
  have hpi := pi_pos
  have hr0 : 0 < r := lt_of_lt_of_le (sqrt_pos.2 (by positivity)) hr
  have hR : 0 < n * r := by positivity
  have hchi2 : chi ≤ 2 * n * r ^ 2 := by
    have := (sqrt_le_left hr0.le).1 hr
    rw [div_le_iff₀ (by linarith)] at this
    linarith
  have hr1 : r ^ 2 ≤ 0.81 := by
    have := pow_le_pow_left₀ hr0.le hr9 2
    norm_num at this ⊢; linarith
  have hden : 0 < 4 * n - chi := by nlinarith
  have hnum : 0 ≤ 2 * n * (2 * (n * r) ^ 2 - n * chi) := by
    have : 2 * (n * r) ^ 2 - n * chi = n * (2 * n * r ^ 2 - chi) := by ring
    rw [this]
    have : 0 ≤ 2 * n * r ^ 2 - chi := by linarith
    positivity
  set q := sqrt (2 * n * (2 * (n * r) ^ 2 - n * chi) / (4 * n - chi)) / (n * r) with hqd
  have hq0 : 0 ≤ q := by positivity
  have hq1 : q ≤ 1 := by
    rw [hqd, div_le_one hR, sqrt_le_left hR.le, div_le_iff₀ hden]
    have h1 : 2 * n * (n * chi) ≥ chi * (n * r) ^ 2 := by
      have : chi * (n * r) ^ 2 = chi * n ^ 2 * r ^ 2 := by ring
      rw [this]
      have : 0 < chi * n ^ 2 := by positivity
      nlinarith
    nlinarith
  have hd0 := arccos_nonneg q
  have hd1 : arccos q ≤ π / 2 := arccos_le_pi_div_two.2 hq0
  refine ⟨angmod2pi (m - arccos q), angmod2pi (m + arccos q), arccos q, ?_, hd0, hd1,
    cos_arccos (by linarith) hq1, around hd0 (by linarith)⟩
  have hin : approximateInner r n chi = some q := by
    unfold approximateInner
    simp only [if_pos hr9, pydiv, if_neg hden.ne', Option.bind_some, pysqrt,
      if_neg (not_lt.2 (div_nonneg hnum hden.le)), if_neg hR.ne', hqd]
  have : ciApproximate alpha w (some m) (some r) (some n) chi
      = .ok (some (m - arccos q, m + arccos q)) := by
    simp only [ciApproximate, ciApproximateOf]
    rw [if_neg (by simpa using hn), if_neg (not_lt.2 hr), hin]
    simp only [Option.bind_some, pyarccos]
    rw [if_neg (by push Not; constructor <;> linarith)]
    simp [intervalAround, swap_around hd0 (by linarith : arccos q < π)]
  simp [circMeanCi, circMeanCiRaw, this, Except.map]

/-- `0.9 < r ≤ 1`: the interval is `nan` exactly when `n² < (n² - R²) e^{χ/n}`; otherwise it is a
proper interval around the mean of half width in `[0, π/2]`. -/
theorem C21_approximate_concentrated (m r n ci chi z : ℝ) (alpha w : Option (List ℝ))
    (draws : List (List ℝ)) (hn : 8 ≤ n) (hchi : 0 ≤ chi) (hr : sqrt (chi / (2 * n)) ≤ r)
    (hr9 : 0.9 < r) (hr1 : r ≤ 1) :
    (n ^ 2 < (n ^ 2 - (n * r) ^ 2) * exp (chi / n) ∧
      circMeanCi alpha w (some m) (some r) (some n) ci chi z draws "approximate" = .ok none) ∨
    (∃ lb ub d : ℝ, (n ^ 2 - (n * r) ^ 2) * exp (chi / n) ≤ n ^ 2 ∧
      circMeanCi alpha w (some m) (some r) (some n) ci chi z draws "approximate"
        = .ok (some (lb, ub)) ∧
      0 ≤ d ∧ d ≤ π / 2 ∧
      cos d = sqrt (n ^ 2 - (n ^ 2 - (n * r) ^ 2) * exp (chi / n)) / (n * r) ∧
      IsIntervalAround m d lb ub) := by
  have hpi := pi_pos
  have hr0 : 0 < r := by norm_num at hr9; linarith
  have hR : 0 < n * r := by positivity
  have hRn : (n * r) ^ 2 ≤ n ^ 2 := pow_le_pow_left₀ hR.le (by nlinarith) 2
  have hexp : 1 ≤ exp (chi / n) := one_le_exp (div_nonneg hchi (by linarith))
  rcases lt_or_ge (n ^ 2) ((n ^ 2 - (n * r) ^ 2) * exp (chi / n)) with h | h
  · left
    refine ⟨h, ?_⟩
    have hin : approximateInner r n chi = none := by
      unfold approximateInner
      simp only [if_neg (not_le.2 hr9), pysqrt]
      rw [if_pos (by linarith)]
      rfl
    have : ciApproximate alpha w (some m) (some r) (some n) chi = .ok none := by
      simp only [ciApproximate, ciApproximateOf]
      rw [if_neg (by simpa using hn), if_neg (not_lt.2 hr), hin]
      simp [intervalAround]
    simp [circMeanCi, circMeanCiRaw, this, Except.map]
  · right
    set q := sqrt (n ^ 2 - (n ^ 2 - (n * r) ^ 2) * exp (chi / n)) / (n * r) with hqd
    have hq0 : 0 ≤ q := by positivity
    have hq1 : q ≤ 1 := by
      rw [hqd, div_le_one hR, sqrt_le_left hR.le]
      nlinarith
    have hd0 := arccos_nonneg q
    have hd1 : arccos q ≤ π / 2 := arccos_le_pi_div_two.2 hq0
    refine ⟨angmod2pi (m - arccos q), angmod2pi (m + arccos q), arccos q, h, ?_, hd0, hd1,
      cos_arccos (by linarith) hq1, around hd0 (by linarith)⟩
    have hin : approximateInner r n chi = some q := by
      unfold approximateInner
      simp only [if_neg (not_le.2 hr9), pysqrt]
      rw [if_neg (by linarith)]
      simp only [Option.bind_some, pydiv, if_neg hR.ne', hqd]
    have : ciApproximate alpha w (some m) (some r) (some n) chi
        = .ok (some (m - arccos q, m + arccos q)) := by
      simp only [ciApproximate, ciApproximateOf]
      rw [if_neg (by simpa using hn), if_neg (not_lt.2 hr), hin]
      simp only [Option.bind_some, pyarccos]
      rw [if_neg (by push Not; constructor <;> linarith)]
      simp [intervalAround, swap_around hd0 (by linarith : arccos q < π)]
    simp [circMeanCi, circMeanCiRaw, this, Except.map]

/-- For confidence levels up to 0.9996 (`χ ≤ 13`) the concentrated branch never yields `nan`. -/
theorem C21_concentrated_not_nan (r n chi : ℝ) (hn : 8 ≤ n) (hchi : 0 ≤ chi) (hc : chi ≤ 13)
    (hr9 : 0.9 < r) (hr1 : r ≤ 1) : (n ^ 2 - (n * r) ^ 2) * exp (chi / n) ≤ n ^ 2 := by
  have hexp : exp (chi / n) ≤ 526 / 100 := by
    have h1 : chi / n ≤ 13 / 8 := by
      rw [div_le_div_iff₀ (by linarith) (by norm_num)]; linarith
    have h2 : exp (chi / n) ≤ exp (13 / 8) := exp_le_exp.2 h1
    have h3 : exp (13 / 8) ^ 8 = exp 1 ^ 13 := by
      rw [← exp_nat_mul, ← exp_nat_mul]; norm_num
    have h4 : exp 1 ^ 13 ≤ (2.7182818286 : ℝ) ^ 13 :=
      pow_le_pow_left₀ (exp_pos _).le exp_one_lt_d9.le 13
    have h5 : exp (13 / 8) ≤ 526 / 100 := by
      by_contra hcon
      push Not at hcon
      have h6 : (526 / 100 : ℝ) ^ 8 < exp (13 / 8) ^ 8 :=
        pow_lt_pow_left₀ hcon (by norm_num) (by norm_num)
      rw [h3] at h6
      have : (2.7182818286 : ℝ) ^ 13 < (526 / 100 : ℝ) ^ 8 := by norm_num
      linarith
    linarith
  have hr2 : 0.81 < r ^ 2 := by
    have := pow_lt_pow_left₀ hr9 (by norm_num) (two_ne_zero)
    norm_num at this ⊢; linarith
  have h0 : n ^ 2 - (n * r) ^ 2 = n ^ 2 * (1 - r ^ 2) := by ring
  rw [h0]
  have h1 : 0 ≤ 1 - r ^ 2 := by nlinarith
  have h2 : (1 - r ^ 2) * exp (chi / n) ≤ 1 := by
    have : (1 - r ^ 2) * exp (chi / n) ≤ (1 - r ^ 2) * (526 / 100) :=
      mul_le_mul_of_nonneg_left hexp h1
    norm_num at hr2
    linarith
  have : 0 ≤ n ^ 2 := by positivity
  nlinarith

/-- When mean and resultant are not supplied they are computed from the sample. -/
theorem C21_approximate_from_sample (alpha w : List ℝ) (ci chi z : ℝ) (draws : List (List ℝ))
    (m r : ℝ) (h : circMeanAndR alpha w = some (some m, r)) (mean n : Option ℝ) :
    circMeanCi (some alpha) (some w) mean none n ci chi z draws "approximate" =
      circMeanCi none none (some m) (some r) (some w.sum) ci chi z draws "approximate" := by
  have : ciApproximate (some alpha) (some w) mean none n chi =
      ciApproximate none none (some m) (some r) (some w.sum) chi := by
    cases mean <;> simp [ciApproximate, h]
  simp [circMeanCi, circMeanCiRaw, this]

/-- Numbers meeting the hypotheses of the two branches. -/
example : (8 : ℝ) ≤ 10 ∧ (0 : ℝ) < 3.84 ∧ sqrt (3.84 / (2 * 10)) ≤ 0.5 ∧
    sqrt (3.84 / (2 * 10)) ≤ 0.95 := by
  refine ⟨by norm_num, by norm_num, ?_, ?_⟩ <;>
  · rw [sqrt_le_left (by norm_num)]; norm_num

end Verif.Props
