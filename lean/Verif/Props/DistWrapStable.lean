import Verif.Lemmas.WrapStableC
import Verif.Props.DistJonesPewsey
import Verif.Props.DistCauchy
import Verif.Spec.Distribution

/-! # C115: the density of the wrapped stable distribution -/

set_option autoImplicit false

namespace Verif

open Verif.Spec Real MeasureTheory

lemma ws_stablePhase {s : WS} (ha : 1 / 10 ^ 10 < |s.alpha - 1|) (p : ℝ) :
    wsMu s p = stablePhase s.delta s.alpha s.beta s.gamma p := by
  unfold wsMu stablePhase
  rw [if_neg (not_le.2 ha), if_neg (by intro h; rw [h] at ha; norm_num at ha),
    show 1 / 2 * π * s.alpha = π * s.alpha / 2 by ring]

lemma ws_stablePhase_one {s : WS} (ha : s.alpha = 1) (p : ℝ) :
    wsMu s p = stablePhase s.delta 1 (-s.beta) s.gamma p := by
  unfold wsMu stablePhase
  rw [if_pos (by rw [ha]; norm_num), if_pos rfl]
  ring

lemma ws_hasMoment {s : WS} (hs : wsArgcheck s) {phase : ℝ → ℝ} (h : ∀ p, wsMu s p = phase p) (k : ℕ) :
    HasMoment (fun x => wsPdf x s) (k + 1)
      (open Classical in if k ≤ 20000 ∧ 1 / 10 ^ 12 < stableLength s.alpha s.gamma k
        then stableLength s.alpha s.gamma (k + 1) else 0) (phase (k + 1)) := by
  have hc := wsPdf_cos s k
  have hsn := wsPdf_sin s k
  have e : (k ≤ 20000 ∧ 1 / 10 ^ 12 < stableLength s.alpha s.gamma k) ↔ k + 1 ≤ wsOrder s := (wsOrder_iff hs k).symm
  refine ⟨?_, ?_⟩
  · push_cast
    rw [hc, if_congr e rfl rfl, ite_mul, zero_mul, h]
    rfl
  · push_cast
    rw [hsn, if_congr e rfl rfl, ite_mul, zero_mul, h]
    rfl

open Classical in
/-- **C115.** The `pdf` method of the wrapped stable distribution, for `alpha` away from 1: a continuous function of the
angle with integral 1 over the circle, whose trigonometric moments are those of the stable law as long as the previous
one is longer than `1e-12` and at most 20001 of them are used; all later moments are 0. -/
theorem C115_moments {s : WS} (hs : wsArgcheck s) (ha : 1 / 10 ^ 10 < |s.alpha - 1|) :
    ∃ g : ℝ → ℝ, (∀ x, RegularAngle x → distPdf wrapstable x s = some (g x)) ∧ Continuous g ∧
      (∀ x, g (x + 2 * π) = g x) ∧ ∫ x in (0 : ℝ)..(2 * π), g x = 1 ∧
      ∀ k : ℕ, HasMoment g (k + 1)
        (if k ≤ 20000 ∧ 1 / 10 ^ 12 < stableLength s.alpha s.gamma k then stableLength s.alpha s.gamma (k + 1) else 0)
        (stablePhase s.delta s.alpha s.beta s.gamma (k + 1)) :=
  ⟨fun x => wsPdf x s, fun _ hx => distPdf_regular wrapstable hs hx, wsPdf_continuous s, wsPdf_periodic s, wsPdf_mass s,
    fun k => ws_hasMoment hs (ws_stablePhase ha) k⟩

open Classical in
/-- **C115 (negative).** For `alpha = 1` the moments are those of the stable law with skewness `-beta` in place of
`beta`. -/
theorem C115_moments_one {s : WS} (hs : wsArgcheck s) (ha : s.alpha = 1) :
    ∃ g : ℝ → ℝ, (∀ x, RegularAngle x → distPdf wrapstable x s = some (g x)) ∧ Continuous g ∧
      (∀ x, g (x + 2 * π) = g x) ∧ ∫ x in (0 : ℝ)..(2 * π), g x = 1 ∧
      ∀ k : ℕ, HasMoment g (k + 1)
        (if k ≤ 20000 ∧ 1 / 10 ^ 12 < stableLength s.alpha s.gamma k then stableLength s.alpha s.gamma (k + 1) else 0)
        (stablePhase s.delta 1 (-s.beta) s.gamma (k + 1)) :=
  ⟨fun x => wsPdf x s, fun _ hx => distPdf_regular wrapstable hs hx, wsPdf_continuous s, wsPdf_periodic s, wsPdf_mass s,
    fun k => ws_hasMoment hs (ws_stablePhase_one ha) k⟩

/-- **C115.** If the stable law's 20000-th moment is at most `1e-12` long, every moment of the `pdf` method is within
`1e-12` of it in each coordinate (`alpha` away from 1, or no skewness). -/
theorem C115_accurate {s : WS} (hs : wsArgcheck s) (ha : 1 / 10 ^ 10 < |s.alpha - 1| ∨ s.alpha = 1 ∧ s.beta = 0)
    (h20 : stableLength s.alpha s.gamma 20000 ≤ 1 / 10 ^ 12) {k : ℕ} (hk : 1 ≤ k) :
    ∃ g : ℝ → ℝ, (∀ x, RegularAngle x → distPdf wrapstable x s = some (g x)) ∧
      |(∫ x in (0 : ℝ)..(2 * π), cos (k * x) * g x)
        - stableLength s.alpha s.gamma k * cos (stablePhase s.delta s.alpha s.beta s.gamma k)| ≤ 1 / 10 ^ 12 ∧
      |(∫ x in (0 : ℝ)..(2 * π), sin (k * x) * g x)
        - stableLength s.alpha s.gamma k * sin (stablePhase s.delta s.alpha s.beta s.gamma k)| ≤ 1 / 10 ^ 12 := by
  classical
  have hph : ∀ p, wsMu s p = stablePhase s.delta s.alpha s.beta s.gamma p := by
    rcases ha with h | ⟨h, hb⟩
    · exact ws_stablePhase h
    · intro p
      rw [ws_stablePhase_one h, h, hb, neg_zero]
  obtain ⟨j, rfl⟩ : ∃ j, k = j + 1 := ⟨k - 1, by omega⟩
  obtain ⟨h1, h2⟩ := ws_hasMoment hs hph j
  refine ⟨fun x => wsPdf x s, fun _ hx => distPdf_regular wrapstable hs hx, ?_⟩
  obtain ⟨-, ht⟩ := wsOrder_tail hs h20
  have hlen : (if j ≤ 20000 ∧ 1 / 10 ^ 12 < stableLength s.alpha s.gamma j then stableLength s.alpha s.gamma (j + 1) else 0)
      = stableLength s.alpha s.gamma ((j + 1 : ℕ) : ℝ) ∨
      (if j ≤ 20000 ∧ 1 / 10 ^ 12 < stableLength s.alpha s.gamma j then stableLength s.alpha s.gamma (j + 1) else 0) = 0 ∧
        stableLength s.alpha s.gamma ((j + 1 : ℕ) : ℝ) ≤ 1 / 10 ^ 12 := by
    by_cases h : j ≤ 20000 ∧ 1 / 10 ^ 12 < stableLength s.alpha s.gamma j
    · left; rw [if_pos h]; push_cast; rfl
    · right
      refine ⟨if_neg h, ?_⟩
      have hj : ¬ j + 1 ≤ wsOrder s := fun hc => h ((wsOrder_iff hs j).1 hc)
      have hle : (wsOrder s : ℝ) ≤ ((j + 1 : ℕ) : ℝ) := by exact_mod_cast (by omega)
      exact (wsRho_anti hs (by positivity) hle).trans ht
  have hpos : 0 ≤ stableLength s.alpha s.gamma ((j + 1 : ℕ) : ℝ) := (exp_pos _).le
  rw [h1, h2]
  push_cast at hlen hpos ⊢
  rcases hlen with h | ⟨h, hle⟩
  · rw [h, sub_self, sub_self, abs_zero]
    constructor <;> positivity
  · rw [h, zero_mul, zero_sub, zero_mul, zero_sub, abs_neg, abs_neg, abs_mul, abs_mul, abs_of_nonneg hpos]
    exact ⟨(mul_le_of_le_one_right hpos (abs_cos_le_one _)).trans hle,
      (mul_le_of_le_one_right hpos (abs_sin_le_one _)).trans hle⟩

/-- **C115.** `alpha = 2`: for every `beta` and `gamma ≥ 3e-4` the `pdf` method is within `1e-12 / (10 π gamma)` of the
wrapped normal density with variance `2 gamma²`. -/
theorem C115_normal {s : WS} (hs : wsArgcheck s) (ha : s.alpha = 2) (hg : 3 / 10 ^ 4 ≤ s.gamma) {x : ℝ}
    (hx : RegularAngle x) :
    ∃ v, distPdf wrapstable x s = some v ∧
      |v - wrappedNormal s.delta (√2 * s.gamma) x| ≤ 1 / 10 ^ 12 / (π * (10 * s.gamma)) :=
  ⟨_, distPdf_regular wrapstable hs hx, wsPdf_normal hs ha hg x⟩

/-- **C115.** `alpha = 1`, `beta = 0` and `gamma ≥ 0.0014`: the `pdf` method is a positive density within
`1e-12 / (π gamma)` of the wrapped Cauchy density with mean resultant length `exp(-gamma)`. -/
theorem C115_cauchy {s : WS} (hs : wsArgcheck s) (ha : s.alpha = 1) (hb : s.beta = 0) (hg : 14 / 10 ^ 4 ≤ s.gamma) :
    ∃ g : ℝ → ℝ, (∀ x, RegularAngle x → distPdf wrapstable x s = some (g x)) ∧ IsCircularDensity g ∧ (∀ x, 0 < g x) ∧
      ∀ x, |g x - wrappedCauchy s.delta (exp (-s.gamma)) x| ≤ 1 / 10 ^ 12 / (π * s.gamma) :=
  ⟨fun x => wsPdf x s, fun _ hx => distPdf_regular wrapstable hs hx,
    ⟨fun x _ _ => (wsPdf_cauchy_pos hs ha hb hg x).le, (wsPdf_continuous s).intervalIntegrable _ _, wsPdf_mass s⟩,
    wsPdf_cauchy_pos hs ha hb hg, wsPdf_cauchy hs ha hb hg⟩

/-! ## Rotation and reflection -/

/-- **C115.** Moving `delta` and the angle by the same amount keeps the density. -/
theorem C115_rotate {s : WS} (hs : wsArgcheck s) {c x : ℝ} (hc : wsArgcheck { s with delta := s.delta + c })
    (hx : RegularAngle x) (hx' : RegularAngle (x + c)) :
    distPdf wrapstable (x + c) { s with delta := s.delta + c } = distPdf wrapstable x s := by
  rw [distPdf_regular wrapstable hs hx, distPdf_regular wrapstable hc hx']
  refine congrArg some ?_
  show wsPdf (x + c) { s with delta := s.delta + c } = wsPdf x s
  unfold wsPdf
  rw [wsOrder_congr (s := { s with delta := s.delta + c }) (s' := s) rfl rfl]
  congr 3
  refine Finset.sum_congr rfl fun i _ => ?_
  have : ((i : ℝ) + 1) * (x + c) - wsMu { s with delta := s.delta + c } (i + 1) = (i + 1) * x - wsMu s (i + 1) := by
    unfold wsMu
    dsimp only
    split_ifs <;> ring
  rw [this]
  rfl

/-- **C115.** Changing the sign of `beta` mirrors the density at `delta`. -/
theorem C115_reflect {s : WS} (hs : wsArgcheck s) {d : ℝ} (hx : RegularAngle (s.delta + d)) (hx' : RegularAngle (s.delta - d)) :
    distPdf wrapstable (s.delta - d) { s with beta := -s.beta } = distPdf wrapstable (s.delta + d) s := by
  have hs' : wsArgcheck { s with beta := -s.beta } :=
    ⟨hs.1, hs.2.1, ⟨by have := hs.2.2.1.2; show -1 < -s.beta; linarith, by have := hs.2.2.1.1; show -s.beta < 1; linarith⟩, hs.2.2.2⟩
  rw [distPdf_regular wrapstable hs hx, distPdf_regular wrapstable hs' hx']
  refine congrArg some ?_
  show wsPdf (s.delta - d) { s with beta := -s.beta } = wsPdf (s.delta + d) s
  unfold wsPdf
  rw [wsOrder_congr (s := { s with beta := -s.beta }) (s' := s) rfl rfl]
  congr 3
  refine Finset.sum_congr rfl fun i _ => ?_
  have : ((i : ℝ) + 1) * (s.delta - d) - wsMu { s with beta := -s.beta } (i + 1)
      = -((i + 1) * (s.delta + d) - wsMu s (i + 1)) := by
    unfold wsMu
    dsimp only
    split_ifs <;> ring
  rw [this, cos_neg]
  rfl

/-! ## Negative values -/

lemma ws_negative {s : WS} (hs : wsArgcheck s) {x : ℝ} (hx : RegularAngle x) (h : wsPdf x s < 0) :
    (∃ v, v < 0 ∧ distPdf wrapstable x s = some v) ∧ distLogpdf wrapstable x s = none := by
  have e' : distPdf wrapstable x s = some (wsPdf x s) := distPdf_regular wrapstable hs hx
  refine ⟨⟨_, h, e'⟩, ?_⟩
  unfold distLogpdf
  rw [e']
  simp [h.le]

lemma ws_order_two {s : WS} (hs : wsArgcheck s) (ha : s.alpha = 2) (hg : 3 / 10 ^ 4 ≤ s.gamma) :
    wsOrder s = ⌈√(12 * log 10) / s.gamma⌉₊ := by
  have hg0 := hs.2.2.2
  have hL := log_ten_gt
  obtain ⟨hP, ht, -⟩ := ws_normal_tail hs ha hg
  have hPpos := wsOrder_pos hs
  have hsq : 0 ≤ 12 * log (10 : ℝ) := by linarith
  have hiff : ∀ p : ℕ, wsRho s p ≤ 1 / 10 ^ 12 ↔ ⌈√(12 * log 10) / s.gamma⌉₊ ≤ p := fun p => by
    rw [wsRho_le_iff, ha, rpow_two, Nat.ceil_le, div_le_iff₀ hg0, mul_comm (p : ℝ), sqrt_le_left (by positivity)]
  refine le_antisymm ?_ ((hiff _).1 ht)
  by_contra hcon
  push Not at hcon
  obtain ⟨j, hj⟩ : ∃ j, wsOrder s = j + 1 := ⟨wsOrder s - 1, by omega⟩
  have h1 := ((wsOrder_iff hs j).1 (by omega)).2
  have h2 := (hiff j).2 (by omega)
  linarith

/-- **C115 (negative).** `alpha = 2` and `3e-4 ≤ gamma ≤ 0.1`: whenever the number of terms, `√(12 log 10) / gamma` rounded up,
is odd, the `pdf` method is negative at the angle opposite to `delta`, and `logpdf` has no value there. -/
theorem C115_negative {s : WS} (hs : wsArgcheck s) (ha : s.alpha = 2) (hg : 3 / 10 ^ 4 ≤ s.gamma) (hg1 : s.gamma ≤ 1 / 10)
    (hodd : Odd ⌈√(12 * log 10) / s.gamma⌉₊) {x : ℝ} (hx : RegularAngle x) (ho : cos (x - s.delta) = -1) :
    (∃ v, v < 0 ∧ distPdf wrapstable x s = some v) ∧ distLogpdf wrapstable x s = none := by
  rw [← ws_order_two hs ha hg] at hodd
  exact ws_negative hs hx (wsPdf_opposite_neg hs ha hg hg1 hodd ho)

/-- **C115 (negative).** Narrow symmetric distributions, for example with the smallest `gamma` that `fit` allows: the `pdf`
method takes values below `-1200`, within `3e-4` of `delta`. -/
theorem C115_far_below {s : WS} (hs : wsArgcheck s) (hb : s.beta = 0) (ha : 1 ≤ s.alpha) (hg : s.gamma ≤ 1 / 10 ^ 6) :
    ∃ x v, (0 ≤ x ∧ x < 2 * π ∧ |x - s.delta| ≤ 3 / 10 ^ 4) ∧ v < -1200 ∧ distPdf wrapstable x s = some v := by
  have hpi := pi_lt_d2
  have hpi' := pi_gt_three
  obtain ⟨hm0, hm1⟩ := hs.1
  by_cases hmu : s.delta ≤ π
  · refine ⟨s.delta + 3 * π / 40003, _, ⟨by positivity, by linarith, ?_⟩, ws_narrow_neg hs hb ha hg (Or.inl rfl),
      distPdf_regular _ hs ⟨by positivity, Or.inl (by norm_num; linarith)⟩⟩
    rw [add_sub_cancel_left, abs_of_pos (by positivity)]
    norm_num
    linarith
  · push Not at hmu
    refine ⟨s.delta + -(3 * π / 40003), _, ⟨by linarith, by linarith, ?_⟩, ws_narrow_neg hs hb ha hg (Or.inr rfl),
      distPdf_regular _ hs ⟨by linarith, Or.inl (by norm_num; linarith)⟩⟩
    rw [add_sub_cancel_left, abs_neg, abs_of_pos (by positivity)]
    norm_num
    linarith

/-! ## The sign error at `alpha = 1` -/

lemma ws_first_sin {s : WS} (hs : wsArgcheck s) :
    ∫ x in (0 : ℝ)..(2 * π), sin (x - s.delta) * wsPdf x s = wsRho s 1 * sin (wsMu s 1 - s.delta) := by
  have hc := wsPdf_cos s 0
  have hsn := wsPdf_sin s 0
  rw [if_pos (wsOrder_pos hs)] at hc hsn
  simp only [Nat.cast_zero, zero_add, one_mul] at hc hsn
  have hcont := wsPdf_continuous s
  have e : ∀ x, sin (x - s.delta) * wsPdf x s = cos s.delta * (sin x * wsPdf x s) - sin s.delta * (cos x * wsPdf x s) :=
    fun x => by rw [sin_sub]; ring
  simp only [e]
  rw [intervalIntegral.integral_sub ((by fun_prop : Continuous fun x => cos s.delta * (sin x * wsPdf x s)).intervalIntegrable _ _)
    ((by fun_prop : Continuous fun x => sin s.delta * (cos x * wsPdf x s)).intervalIntegrable _ _),
    intervalIntegral.integral_const_mul, intervalIntegral.integral_const_mul, hc, hsn, sin_sub]
  ring

/-- Bounds of the skewness term for `alpha` near 1. -/
lemma ws_skew_bounds {alpha gamma : ℝ} (h0 : 1 / 2 ≤ alpha) (h1 : alpha ≤ 3 / 2) (hne : alpha ≠ 1) (hg0 : 0 < gamma) (hg1 : gamma < 1) :
    2 / 5 * gamma ^ 2 * -log gamma ≤ tan (1 / 2 * π * alpha) * (gamma ^ alpha - gamma) ∧
      tan (1 / 2 * π * alpha) * (gamma ^ alpha - gamma) ≤ -log gamma := by
  have hpi := pi_gt_three
  have hpi' := pi_lt_d2
  obtain ⟨l, hl⟩ : ∃ l, l = -log gamma := ⟨_, rfl⟩
  have hl0 : 0 < l := by rw [hl]; have := log_neg hg0 hg1; linarith
  -- `cot (π u / 2)` for `0 < u ≤ 1/2`
  have hcot : ∀ u, 0 < u → u ≤ 1 / 2 → 2 / 5 ≤ u * (tan (1 / 2 * π * u))⁻¹ ∧ u * (tan (1 / 2 * π * u))⁻¹ ≤ 1 := fun u hu hu1 => by
    have hy0 : 0 < 1 / 2 * π * u := by positivity
    have hy1 : 1 / 2 * π * u ≤ π / 4 := by nlinarith
    have ht := lt_tan hy0 (by linarith)
    have htp : 0 < tan (1 / 2 * π * u) := by linarith
    have hcos : 7 / 10 ≤ cos (1 / 2 * π * u) := by
      have := cos_le_cos_of_nonneg_of_le_pi hy0.le (by linarith) hy1
      rw [cos_pi_div_four] at this
      have h2 : (14 : ℝ) / 10 ≤ √2 := le_sqrt_of_sq_le (by norm_num)
      linarith
    have htan : tan (1 / 2 * π * u) * (7 / 10) ≤ 1 / 2 * π * u := by
      have hs := sin_le hy0.le
      rw [tan_eq_sin_div_cos] at htp ⊢
      calc _ ≤ sin (1 / 2 * π * u) / cos (1 / 2 * π * u) * cos (1 / 2 * π * u) :=
            mul_le_mul_of_nonneg_left hcos htp.le
        _ = sin (1 / 2 * π * u) := div_mul_cancel₀ _ (by linarith)
        _ ≤ _ := hs
    rw [← div_eq_mul_inv]
    constructor
    · rw [le_div_iff₀ htp]; nlinarith
    · rw [div_le_one htp]; nlinarith
  have hexp : ∀ y, gamma ^ y = exp (-(l * y)) := fun y => by
    rw [rpow_def_of_pos hg0, hl]; congr 1; ring
  rw [← hl]
  rcases lt_or_gt_of_ne hne with h | h
  · obtain ⟨u, hu⟩ : ∃ u, u = 1 - alpha := ⟨_, rfl⟩
    have hu0 : 0 < u := by linarith
    obtain ⟨c1, c2⟩ := hcot u hu0 (by linarith)
    have ht : tan (1 / 2 * π * alpha) = (tan (1 / 2 * π * u))⁻¹ := by
      rw [← tan_pi_div_two_sub]; congr 1; rw [hu]; ring
    obtain ⟨T, hT⟩ : ∃ T, T = (tan (1 / 2 * π * u))⁻¹ := ⟨_, rfl⟩
    rw [ht, ← hT]
    rw [← hT] at c1 c2
    have hT0 : 0 < T := by by_contra hc; push Not at hc; nlinarith
    have ga1 : gamma ^ alpha ≤ 1 := rpow_le_one hg0.le hg1.le (by linarith)
    have hsplit : gamma = gamma ^ alpha * gamma ^ u := by rw [← rpow_add hg0, hu]; simp
    have ha0 : 0 < gamma ^ alpha := by positivity
    -- `1 - γ^u ≤ u l` and `γ^α - γ ≥ γ u l`
    have hup : 1 - gamma ^ u ≤ u * l := by
      have := add_one_le_exp (-(l * u))
      rw [← hexp] at this
      linarith
    have hlo : gamma * (u * l) ≤ gamma ^ alpha - gamma := by
      have h2 := add_one_le_exp (l * u)
      have h3 : gamma ^ alpha = gamma * exp (l * u) := by
        rw [hexp, show gamma = exp (-(l * 1)) by rw [← hexp, rpow_one], ← exp_add, hu]
        congr 1; ring
      rw [h3]
      nlinarith
    have hup2 : gamma ^ alpha - gamma ≤ u * l := by
      have : gamma ^ alpha - gamma = gamma ^ alpha * (1 - gamma ^ u) := by
        rw [mul_sub, mul_one, ← hsplit]
      rw [this]
      calc _ ≤ gamma ^ alpha * (u * l) := mul_le_mul_of_nonneg_left hup ha0.le
        _ ≤ 1 * (u * l) := mul_le_mul_of_nonneg_right ga1 (by positivity)
        _ = _ := one_mul _
    constructor
    · calc 2 / 5 * gamma ^ 2 * l ≤ 2 / 5 * gamma * l := by
            refine mul_le_mul_of_nonneg_right ?_ hl0.le
            nlinarith
        _ ≤ u * T * (gamma * l) := by
            rw [show 2 / 5 * gamma * l = 2 / 5 * (gamma * l) by ring]
            exact mul_le_mul_of_nonneg_right c1 (by positivity)
        _ = T * (gamma * (u * l)) := by ring
        _ ≤ _ := mul_le_mul_of_nonneg_left hlo hT0.le
    · calc _ ≤ T * (u * l) := mul_le_mul_of_nonneg_left hup2 hT0.le
        _ = u * T * l := by ring
        _ ≤ 1 * l := mul_le_mul_of_nonneg_right c2 hl0.le
        _ = l := one_mul l
  · obtain ⟨u, hu⟩ : ∃ u, u = alpha - 1 := ⟨_, rfl⟩
    have hu0 : 0 < u := by linarith
    obtain ⟨c1, c2⟩ := hcot u hu0 (by linarith)
    have ht : tan (1 / 2 * π * alpha) = -(tan (1 / 2 * π * u))⁻¹ := by
      rw [← tan_pi_div_two_sub, ← tan_neg, show -(π / 2 - 1 / 2 * π * u) = 1 / 2 * π * alpha - π by rw [hu]; ring, tan_sub_pi]
    obtain ⟨T, hT⟩ : ∃ T, T = (tan (1 / 2 * π * u))⁻¹ := ⟨_, rfl⟩
    rw [ht, ← hT]
    rw [← hT] at c1 c2
    have hT0 : 0 < T := by by_contra hc; push Not at hc; nlinarith
    have hsplit : gamma ^ alpha = gamma * gamma ^ u := by
      rw [show alpha = 1 + u by rw [hu]; ring, rpow_add hg0, rpow_one]
    have hga : gamma ^ 2 ≤ gamma ^ alpha := by
      rw [← rpow_two]
      exact rpow_le_rpow_of_exponent_ge hg0 hg1.le (by linarith)
    have hup : gamma - gamma ^ alpha ≤ u * l := by
      have := add_one_le_exp (-(l * u))
      rw [← hexp] at this
      rw [hsplit]
      nlinarith [mul_pos hu0 hl0]
    have hlo : gamma ^ 2 * (u * l) ≤ gamma - gamma ^ alpha := by
      have h2 := add_one_le_exp (l * u)
      have h3 : gamma = gamma ^ alpha * exp (l * u) := by
        rw [hsplit, hexp u, mul_assoc, ← exp_add]; simp
      have h4 : gamma ^ alpha * (u * l) ≤ gamma - gamma ^ alpha := by
        have ha0 : 0 < gamma ^ alpha := by positivity
        nlinarith
      exact (mul_le_mul_of_nonneg_right hga (by positivity)).trans h4
    rw [show -T * (gamma ^ alpha - gamma) = T * (gamma - gamma ^ alpha) by ring]
    constructor
    · calc 2 / 5 * gamma ^ 2 * l ≤ u * T * (gamma ^ 2 * l) := by
            rw [show 2 / 5 * gamma ^ 2 * l = 2 / 5 * (gamma ^ 2 * l) by ring]
            exact mul_le_mul_of_nonneg_right c1 (by positivity)
        _ = T * (gamma ^ 2 * (u * l)) := by ring
        _ ≤ _ := mul_le_mul_of_nonneg_left hlo hT0.le
    · calc _ ≤ T * (u * l) := mul_le_mul_of_nonneg_left hup hT0.le
        _ = u * T * l := by ring
        _ ≤ 1 * l := mul_le_mul_of_nonneg_right c2 hl0.le
        _ = l := one_mul l

/-- **C115 (negative).** The density jumps at `alpha = 1`: for `1/3 ≤ gamma < 1` and `beta > 0` the distribution leans to
one side of `delta` for every `alpha` in `[0.5, 1.5]` farther than `1e-10` from 1, and by a fixed amount to the other side
for `alpha = 1`. -/
theorem C115_jump {delta beta gamma : ℝ} (hd : 0 ≤ delta ∧ delta ≤ 2 * π) (hb0 : 0 < beta) (hb1 : beta < 1)
    (hg0 : 1 / 3 ≤ gamma) (hg1 : gamma < 1) :
    ∃ c > 0, ∀ alpha, 1 / 2 ≤ alpha → alpha ≤ 3 / 2 →
      ∃ g : ℝ → ℝ, (∀ x, RegularAngle x → distPdf wrapstable x ⟨delta, alpha, beta, gamma⟩ = some (g x)) ∧
        (1 / 10 ^ 10 < |alpha - 1| → c ≤ ∫ x in (0 : ℝ)..(2 * π), sin (x - delta) * g x) ∧
        (alpha = 1 → ∫ x in (0 : ℝ)..(2 * π), sin (x - delta) * g x ≤ -c) := by
  have hpi := pi_gt_three
  have hpi' := pi_lt_d2
  have hgp : 0 < gamma := by linarith
  obtain ⟨l, hl⟩ : ∃ l, l = -log gamma := ⟨_, rfl⟩
  have hl0 : 0 < l := by rw [hl]; have := log_neg hgp hg1; linarith
  have hl1 : l ≤ 3 / 2 := by
    have h := log_le_log (by norm_num) hg0
    rw [one_div, log_inv] at h
    have h3 : log (3 : ℝ) ≤ 2 * log 2 := by
      rw [show 2 * log (2 : ℝ) = log (2 ^ 2) by rw [log_pow]; norm_num]
      exact log_le_log (by norm_num) (by norm_num)
    have := log_two_lt_d9
    linarith
  obtain ⟨w, hw⟩ : ∃ w, w = beta * (2 / 5 * gamma ^ 2 * l) := ⟨_, rfl⟩
  have hw0 : 0 < w := by rw [hw]; positivity
  have hsin : ∀ v, w ≤ v → v ≤ 3 / 2 → sin w ≤ sin v := fun v h1 h2 =>
    sin_le_sin_of_le_of_le_pi_div_two (by linarith) (by linarith) h1
  have hg2 : gamma ^ 2 ≤ gamma := by nlinarith
  have hw1 : w ≤ 3 / 2 := by
    rw [hw]
    have : beta * (2 / 5 * gamma ^ 2 * l) ≤ 1 * (2 / 5 * 1 * l) := by
      have : gamma ^ 2 ≤ 1 := by nlinarith
      gcongr
    linarith
  have hsw : 0 < sin w := sin_pos_of_pos_of_lt_pi hw0 (by linarith)
  refine ⟨exp (-1) * sin w, by positivity, fun alpha h0 h1 => ?_⟩
  obtain ⟨s, hs⟩ : ∃ s : WS, s = ⟨delta, alpha, beta, gamma⟩ := ⟨_, rfl⟩
  have harg : wsArgcheck s := by rw [hs]; exact ⟨hd, ⟨by linarith, by linarith⟩, ⟨by linarith, hb1⟩, hgp⟩
  refine ⟨fun x => wsPdf x s, fun x hx => by rw [← hs]; exact distPdf_regular wrapstable harg hx, ?_⟩
  have hint := ws_first_sin harg
  have hrho : exp (-1) ≤ wsRho s 1 := by
    unfold wsRho
    rw [hs, exp_le_exp]
    have : (gamma * 1) ^ alpha ≤ 1 := rpow_le_one (by linarith) (by linarith) (by linarith)
    simp only
    linarith
  have hde : s.delta = delta := by rw [hs]
  rw [hde] at hint
  rw [hint]
  constructor
  · intro hne
    have hmu : wsMu s 1 - delta = beta * (tan (1 / 2 * π * alpha) * (gamma ^ alpha - gamma)) := by
      unfold wsMu
      rw [hs]
      simp only
      rw [if_neg (not_le.2 hne)]
      simp only [mul_one]
      ring
    obtain ⟨b1, b2⟩ := ws_skew_bounds h0 h1 (fun h => by rw [h] at hne; norm_num at hne) hgp hg1
    rw [← hl] at b1 b2
    rw [hmu]
    refine mul_le_mul hrho (hsin _ ?_ ?_) hsw.le (wsRho_pos _ _).le
    · rw [hw]; exact mul_le_mul_of_nonneg_left b1 hb0.le
    · calc _ ≤ beta * l := mul_le_mul_of_nonneg_left b2 hb0.le
        _ ≤ 1 * l := mul_le_mul_of_nonneg_right hb1.le hl0.le
        _ ≤ _ := by linarith
  · intro h
    have hmu : wsMu s 1 - delta = -(beta * (2 / π * gamma * l)) := by
      unfold wsMu
      rw [hs, h]
      simp only
      rw [if_pos (by norm_num), hl]
      simp only [mul_one]
      ring
    have hp2 : 2 / 5 ≤ 2 / π := by rw [div_le_div_iff₀ (by norm_num) pi_pos]; linarith
    have hp3 : 2 / π ≤ 1 := by rw [div_le_one pi_pos]; linarith
    rw [hmu, sin_neg, mul_neg, neg_le_neg_iff]
    refine mul_le_mul hrho (hsin _ ?_ ?_) hsw.le (wsRho_pos _ _).le
    · rw [hw]; gcongr
    · have : beta * (2 / π * gamma * l) ≤ 1 * (1 * 1 * l) := by gcongr
      linarith

/-! ## Cases that meet the hypotheses -/

/-- C115, C115_moments, C115_accurate: an asymmetric distribution with `alpha = 3/2`. -/
example : wsArgcheck ⟨1, 3 / 2, 1 / 2, 1⟩ ∧ (1 : ℝ) / 10 ^ 10 < |3 / 2 - 1| ∧ stableLength (3 / 2) 1 20000 ≤ 1 / 10 ^ 12 := by
  have := pi_gt_three
  refine ⟨⟨⟨by norm_num, by simp only; linarith⟩, by norm_num, by norm_num, by norm_num⟩,
    by rw [abs_of_pos] <;> norm_num, ?_⟩
  have h := (wsRho_le_iff ⟨1, 3 / 2, 1 / 2, 1⟩ 20000).2 (by
    have hL := log_ten_lt
    have : (20000 : ℝ) ≤ (20000 : ℝ) ^ (3 / 2 : ℝ) := by
      conv_lhs => rw [← rpow_one (20000 : ℝ)]
      exact rpow_le_rpow_of_exponent_le (by norm_num) (by norm_num)
    simp only [one_mul]
    linarith)
  exact h

/-- C115_negative: `gamma = 0.1`, where 53 terms are used. -/
example : wsArgcheck ⟨0, 2, 1 / 2, 1 / 10⟩ ∧ Odd ⌈√(12 * log 10) / (1 / 10)⌉₊ ∧ RegularAngle π ∧ cos (π - 0) = -1 := by
  have := pi_gt_three
  refine ⟨⟨⟨le_rfl, by simp only; linarith⟩, by norm_num, by norm_num, by norm_num⟩, ?_,
    ⟨pi_pos.le, Or.inl (by norm_num; linarith)⟩, by simp⟩
  have h1 := log_ten_gt
  have h2 := log_ten_lt
  have e : ⌈√(12 * log 10) / (1 / 10)⌉₊ = 53 := by
    rw [Nat.ceil_eq_iff (by norm_num)]
    have a : (52 : ℝ) / 10 < √(12 * log 10) := lt_sqrt_of_sq_lt (by norm_num; linarith)
    have b : √(12 * log 10) ≤ 53 / 10 := sqrt_le_iff.2 ⟨by norm_num, by norm_num; linarith⟩
    constructor
    · rw [lt_div_iff₀ (by norm_num)]; push_cast; norm_num1 at a ⊢; linarith
    · rw [div_le_iff₀ (by norm_num)]; push_cast; norm_num1 at b ⊢; linarith
  rw [e]
  exact ⟨26, rfl⟩

/-- C115_cauchy, C115_far_below: `alpha = 1` with the largest and the smallest scale that `fit` allows. -/
example : wsArgcheck ⟨1, 1, 0, 10⟩ ∧ wsArgcheck ⟨1, 1, 0, 1 / 10 ^ 6⟩ := by
  have := pi_gt_three
  exact ⟨⟨⟨by norm_num, by simp only; linarith⟩, by norm_num, by norm_num, by norm_num⟩,
    ⟨⟨by norm_num, by simp only; linarith⟩, by norm_num, by norm_num, by norm_num⟩⟩

end Verif
