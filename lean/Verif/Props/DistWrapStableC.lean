import Verif.Props.DistWrapStable
import Verif.Props.LikelihoodC
import Mathlib.Analysis.Real.Pi.Bounds

/-! # C115, C83, C109: fitting the wrapped stable distribution -/

set_option autoImplicit false

namespace Verif

open Verif.Spec Real MeasureTheory

lemma ws_clip_inner {v lo hi : ℝ} (h : lo < clip v lo hi) (h' : clip v lo hi < hi) : clip v lo hi = v := by
  unfold clip at *
  rcases le_total (max v lo) hi with h1 | h1
  · rw [min_eq_left h1] at h ⊢
    rcases le_total v lo with h2 | h2
    · rw [max_eq_right h2] at h; exact absurd h (lt_irrefl _)
    · exact max_eq_left h2
  · rw [min_eq_right h1] at h'; exact absurd h' (lt_irrefl _)

lemma ws_clip_eq {v lo hi : ℝ} (h : lo ≤ v) (h' : v ≤ hi) : clip v lo hi = v := by
  unfold clip
  rw [max_eq_left h, min_eq_left h']

lemma ws_expSum (x w : List ℝ) (p : ℤ) :
    expSum x w p = ⟨(List.zipWith (fun xi wi => wi * cos (p * xi)) x w).sum,
      (List.zipWith (fun xi wi => wi * sin (p * xi)) x w).sum⟩ := by
  unfold expSum
  induction x generalizing w with
  | nil => simp only [List.zipWith_nil_left, List.sum_nil]; rfl
  | cons a l ih =>
    cases w with
    | nil => simp only [List.zipWith_nil_right, List.sum_nil]; rfl
    | cons v w =>
      simp only [List.zipWith_cons_cons, List.sum_cons, ih]
      rw [Complex.exp_mul_I]
      apply Complex.ext
      · simp [Complex.cos_ofReal_re, Complex.sin_ofReal_im, -Complex.ofReal_mul]
      · simp [Complex.cos_ofReal_im, Complex.sin_ofReal_re, -Complex.ofReal_mul]

lemma ws_moment_eq (x w : List ℝ) (p : ℤ) : wsMoment x w p = moment x w p := by
  unfold wsMoment moment
  rw [ws_expSum]
  apply Complex.ext
  · rw [Complex.div_ofReal_re]
  · rw [Complex.div_ofReal_im]

lemma ws_moment_one (x w : List ℝ) : wsMoment x w 1 = moment x w 1 := by
  have := ws_moment_eq x w 1; simpa using this

lemma ws_moment_two (x w : List ℝ) : wsMoment x w 2 = moment x w 2 := by
  have := ws_moment_eq x w 2; simpa using this

/-- What a successful moment fit returned. -/
lemma wsFit_moments {minimize : String → (WS → Option ℝ) → WS → MinResult 4} {b : WSBounds} {data : List ℝ}
    (hdata : ∀ x ∈ data, RegularAngle x) {weights : Option (List ℝ)} {optimizer : String} {s : WS}
    (h : wsFit minimize b data weights "moments" optimizer = .ok s) :
    ∃ w, fitWeights data.length weights = .ok w ∧ s = wsMomentEst b data w := by
  unfold wsFit at h
  simp only [map_wrap_regular hdata, bind, Except.bind] at h
  by_cases hne : data.length = 0
  · rw [if_pos hne] at h
    cases h
  rw [if_neg hne] at h
  rcases hw : fitWeights data.length weights with e | w
  · rw [hw] at h
    cases h
  · rw [hw] at h
    simp only [if_true] at h
    exact ⟨w, rfl, (Except.ok.inj h).symm⟩

/-- What a successful maximum likelihood fit returned. -/
lemma wsFit_mle {minimize : String → (WS → Option ℝ) → WS → MinResult 4} {b : WSBounds} {data : List ℝ}
    (hdata : ∀ x ∈ data, RegularAngle x) {weights : Option (List ℝ)} {method optimizer : String} {s : WS} (hm : method ≠ "moments")
    (h : wsFit minimize b data weights method optimizer = .ok s) :
    ∃ w, fitWeights data.length weights = .ok w ∧ ∃ name r, r = minimize name (wsNll b data w)
      (wsStart (wsNll b data w) (wsMomentEst b data w) (wsCandidates b (wsMomentEst b data w)
        (Complex.arg (wsMoment data w 1)) (wsUnwrap (Complex.arg (wsMoment data w 1)) (Complex.arg (wsMoment data w 2))))) ∧
      r.success = true ∧ s = ⟨pymod (r.x 0) (2 * π), clip (r.x 1) b.alpha.1 b.alpha.2,
        clip (r.x 2) b.beta.1 b.beta.2, clip (r.x 3) b.gamma.1 b.gamma.2⟩ := by
  unfold wsFit at h
  simp only [map_wrap_regular hdata, bind, Except.bind] at h
  by_cases hne : data.length = 0
  · rw [if_pos hne] at h
    cases h
  rw [if_neg hne] at h
  rcases hw : fitWeights data.length weights with e | w
  · rw [hw] at h
    cases h
  rw [hw] at h
  simp only [if_neg hm] at h
  by_cases hl : method.toLower ≠ "mle"
  · rw [if_pos hl] at h
    cases h
  rw [if_neg hl] at h
  obtain ⟨st, hst⟩ : ∃ st, st = (wsStart (wsNll b data w) (wsMomentEst b data w) (wsCandidates b (wsMomentEst b data w)
        (Complex.arg (wsMoment data w 1)) (wsUnwrap (Complex.arg (wsMoment data w 1)) (Complex.arg (wsMoment data w 2))))) := ⟨_, rfl⟩
  refine ⟨w, rfl, ?_⟩
  rw [← hst] at h ⊢
  by_cases c1 : (minimize optimizer (wsNll b data w) st).success = false ∧ optimizer ≠ "Powell"
  · rw [if_pos c1] at h
    by_cases c2 : (minimize "Powell" (wsNll b data w) st).success = true
    · rw [if_pos c2, if_neg (by rw [c2]; decide)] at h
      exact ⟨"Powell", _, rfl, c2, (Except.ok.inj h).symm⟩
    · rw [if_neg c2, if_pos c1.1] at h
      cases h
  · rw [if_neg c1] at h
    by_cases c2 : (minimize optimizer (wsNll b data w) st).success = false
    · rw [if_pos c2] at h
      cases h
    · rw [if_neg c2] at h
      exact ⟨optimizer, _, rfl, by simpa using c2, (Except.ok.inj h).symm⟩

/-! ## C83: what the estimates look like -/

lemma wsSkew_range {b : WSBounds} (hb : b.beta.1 ≤ b.beta.2) (alpha gamma phi1 phi2 : ℝ) :
    (b.beta.1 ≤ (wsSkew b alpha gamma phi1 phi2).1 ∧ (wsSkew b alpha gamma phi1 phi2).1 ≤ b.beta.2) ∨
      (wsSkew b alpha gamma phi1 phi2).1 = 0 := by
  unfold wsSkew
  simp only
  split_ifs
  exacts [Or.inr rfl, Or.inl (clip_mem hb), Or.inr rfl, Or.inl (clip_mem hb)]

lemma wsScale_range {b : WSBounds} (ha : b.alpha.1 ≤ b.alpha.2) (hg : b.gamma.1 ≤ b.gamma.2) (R1 R2 : ℝ) :
    (wsScale b R1 R2 = (1, 1 / 10 ^ 3)) ∨ ((b.alpha.1 ≤ (wsScale b R1 R2).1 ∧ (wsScale b R1 R2).1 ≤ b.alpha.2) ∧
      (b.gamma.1 ≤ (wsScale b R1 R2).2 ∧ (wsScale b R1 R2).2 ≤ b.gamma.2)) := by
  unfold wsScale
  simp only
  split_ifs
  · exact Or.inl rfl
  · exact Or.inr ⟨clip_mem ha, clip_mem hg⟩

/-- **C83.** Wrapped stable distribution: with the default bounds, whatever the data, the method and the optimiser do, the
estimates are in the announced ranges and accepted by the methods of the distribution. -/
theorem C83_wrapstable (minimize : String → (WS → Option ℝ) → WS → MinResult 4) (data : List ℝ)
    (hdata : ∀ x ∈ data, RegularAngle x) (weights : Option (List ℝ)) (method optimizer : String) (s : WS)
    (h : wsFit minimize wsDefaultBounds data weights method optimizer = .ok s) :
    (0 ≤ s.delta ∧ s.delta < 2 * π) ∧ (1 / 10 ^ 3 ≤ s.alpha ∧ s.alpha ≤ 2) ∧ |s.beta| ≤ 99 / 100 ∧
      (1 / 10 ^ 6 ≤ s.gamma ∧ s.gamma ≤ 10) ∧
      ∀ x, RegularAngle x → (∃ p, distPdf wrapstable x s = some p) ∧ ∃ c, distCdf wrapstable x s = some c ∧ 0 ≤ c ∧ c ≤ 1 := by
  have hba : wsDefaultBounds.alpha = (1 / 10 ^ 3, 2) := rfl
  have hbb : wsDefaultBounds.beta = (-99 / 100, 99 / 100) := rfl
  have hbg : wsDefaultBounds.gamma = (1 / 10 ^ 6, 10) := rfl
  have key : (0 ≤ s.delta ∧ s.delta < 2 * π) ∧ (1 / 10 ^ 3 ≤ s.alpha ∧ s.alpha ≤ 2) ∧ |s.beta| ≤ 99 / 100 ∧
      (1 / 10 ^ 6 ≤ s.gamma ∧ s.gamma ≤ 10) := by
    by_cases hm : method = "moments"
    · subst hm
      obtain ⟨w, -, rfl⟩ := wsFit_moments hdata h
      have h1 := wsScale_range (b := wsDefaultBounds) (by rw [hba]; norm_num) (by rw [hbg]; norm_num)
        ‖wsMoment data w 1‖ ‖wsMoment data w 2‖
      have h2 := wsSkew_range (b := wsDefaultBounds) (by rw [hbb]; norm_num)
        (wsScale wsDefaultBounds ‖wsMoment data w 1‖ ‖wsMoment data w 2‖).1 (wsScale wsDefaultBounds ‖wsMoment data w 1‖ ‖wsMoment data w 2‖).2
        (Complex.arg (wsMoment data w 1)) (wsUnwrap (Complex.arg (wsMoment data w 1)) (Complex.arg (wsMoment data w 2)))
      rw [hbb] at h2
      rw [hba, hbg] at h1
      refine ⟨⟨pymod_nonneg two_pi_pos _, pymod_lt two_pi_pos _⟩, ?_, ?_, ?_⟩
      · show 1 / 10 ^ 3 ≤ (wsScale wsDefaultBounds ‖wsMoment data w 1‖ ‖wsMoment data w 2‖).1 ∧ _ ≤ _
        rcases h1 with h1 | h1
        · show _ ∧ (wsScale wsDefaultBounds ‖wsMoment data w 1‖ ‖wsMoment data w 2‖).1 ≤ 2
          rw [h1]; norm_num
        · exact h1.1
      · rcases h2 with h2 | h2
        · refine abs_le.2 ⟨le_trans (by norm_num) h2.1, h2.2⟩
        · show |(wsSkew _ _ _ _ _).1| ≤ _
          rw [h2]; norm_num
      · show 1 / 10 ^ 6 ≤ (wsScale wsDefaultBounds ‖wsMoment data w 1‖ ‖wsMoment data w 2‖).2 ∧ _ ≤ _
        rcases h1 with h1 | h1
        · show _ ∧ (wsScale wsDefaultBounds ‖wsMoment data w 1‖ ‖wsMoment data w 2‖).2 ≤ 10
          rw [h1]; norm_num
        · exact h1.2
    · obtain ⟨w, -, name, r, -, -, rfl⟩ := wsFit_mle hdata hm h
      rw [hba, hbb, hbg]
      refine ⟨⟨pymod_nonneg two_pi_pos _, pymod_lt two_pi_pos _⟩, clip_mem (by norm_num), ?_, clip_mem (by norm_num)⟩
      have h2 := clip_mem (lo := (-99 / 100 : ℝ)) (hi := 99 / 100) (v := r.x 2) (by norm_num)
      exact abs_le.2 ⟨by have := h2.1; linarith, h2.2⟩
  obtain ⟨h1, h2, h3, h4⟩ := key
  refine ⟨h1, h2, h3, h4, fun x hx => ?_⟩
  have h3' := abs_le.1 h3
  have hs : wsArgcheck s := ⟨⟨h1.1, h1.2.le⟩, ⟨lt_of_lt_of_le (by norm_num) h2.1, h2.2⟩, ⟨by linarith, by linarith⟩,
    lt_of_lt_of_le (by norm_num) h4.1⟩
  refine ⟨⟨_, distPdf_regular wrapstable hs hx⟩, ?_⟩
  unfold distCdf
  rw [if_neg (not_not.mpr (show wrapstable.argcheck s from hs))]
  split_ifs
  · exact ⟨_, rfl, zero_le_one, le_refl _⟩
  on_goal 2 => exact ⟨_, rfl, le_refl _, zero_le_one⟩
  · refine ⟨_, rfl, ?_⟩
    show 0 ≤ wsCdf (wrap2pi x) s ∧ wsCdf (wrap2pi x) s ≤ 1
    unfold wsCdf
    split_ifs
    exacts [⟨zero_le_one, le_refl _⟩, ⟨le_refl _, zero_le_one⟩, clip_mem zero_le_one, clip_mem zero_le_one]

/-- **C83 (negative).** Bounds given by the caller do not bind the moment estimates: for identical observations (any
number of them, any weights) the moment fit returns `alpha = 1`, `gamma = 0.001` whatever the bounds. -/
theorem C83_wrapstable_bounds_ignored (minimize : String → (WS → Option ℝ) → WS → MinResult 4) (b : WSBounds) {x : ℝ}
    (hx : RegularAngle x) {n : ℕ} (hn : 0 < n) {weights : Option (List ℝ)} {w : List ℝ} (hw : fitWeights n weights = .ok w)
    (optimizer : String) :
    ∃ s, wsFit minimize b (List.replicate n x) weights "moments" optimizer = .ok s ∧ s.alpha = 1 ∧ s.gamma = 1 / 10 ^ 3 := by
  obtain ⟨hlen, -, hsum⟩ := fitWeights_ok hw
  have hdata : ∀ y ∈ List.replicate n x, RegularAngle y := fun y hy => by rw [List.eq_of_mem_replicate hy]; exact hx
  have hz : ∀ (f : ℝ → ℝ) (w : List ℝ), (List.zipWith (fun xi wi => wi * f xi) (List.replicate w.length x) w).sum = w.sum * f x := by
    intro f w
    induction w with
    | nil => simp
    | cons v w ih => rw [List.length_cons, List.replicate_succ, List.zipWith_cons_cons, List.sum_cons, ih, List.sum_cons]; ring
  have hm : wsMoment (List.replicate n x) w 1 = Complex.exp (x * Complex.I) := by
    unfold wsMoment
    rw [← hlen]
    rw [hz (fun t => cos (1 * t)), hz (fun t => sin (1 * t)), mul_div_assoc, mul_div_assoc, mul_div_cancel₀ _ hsum.ne',
      mul_div_cancel₀ _ hsum.ne', Complex.exp_mul_I]
    apply Complex.ext
    · simp [Complex.cos_ofReal_re, Complex.sin_ofReal_im]
    · simp [Complex.cos_ofReal_im, Complex.sin_ofReal_re]
  refine ⟨wsMomentEst b (List.replicate n x) w, ?_, ?_⟩
  · unfold wsFit
    simp only [map_wrap_regular hdata, bind, Except.bind, List.length_replicate, hw]
    rw [if_neg hn.ne']
    simp
  · have : wsScale b ‖wsMoment (List.replicate n x) w 1‖ ‖wsMoment (List.replicate n x) w 2‖ = (1, 1 / 10 ^ 3) := by
      rw [hm, Complex.norm_exp_ofReal_mul_I]
      unfold wsScale
      simp only
      rw [if_pos]
      left
      unfold clip
      norm_num
    unfold wsMomentEst
    simp only [this]
    exact ⟨trivial, trivial⟩

/-! ## C115: the moment estimates reproduce the sample moments -/

lemma ws_round_cong (phi1 phi2 : ℝ) : ∃ k : ℤ, wsUnwrap phi1 phi2 = phi2 + 2 * π * k := ⟨_, rfl⟩

/-- The skewness step, for both forms of the phase: `mu_p = delta p + beta C_p`. -/
lemma wsSkew_eq (b : WSBounds) (alpha gamma phi1 phi2 : ℝ) :
    ∃ C1 C2 : ℝ, (∀ delta beta, wsMu ⟨delta, alpha, beta, gamma⟩ 1 = delta + beta * C1) ∧
      (∀ delta beta, wsMu ⟨delta, alpha, beta, gamma⟩ 2 = 2 * delta + beta * C2) ∧
      (wsSkew b alpha gamma phi1 phi2).2 = phi1 - (wsSkew b alpha gamma phi1 phi2).1 * C1 ∧
      ((wsSkew b alpha gamma phi1 phi2).1 = 0 ∨
        C2 - 2 * C1 ≠ 0 ∧ (wsSkew b alpha gamma phi1 phi2).1 = clip ((phi2 - 2 * phi1) / (C2 - 2 * C1)) b.beta.1 b.beta.2) := by
  have hne : ∀ {u : ℝ}, ¬ |u| < 1 / 10 ^ 8 → u ≠ 0 := fun h h0 => h (by rw [h0, abs_zero]; norm_num)
  by_cases ha : |alpha - 1| ≤ 1 / 10 ^ 10
  · refine ⟨2 / π * gamma * log gamma, 2 / π * (gamma * 2) * log (gamma * 2), ?_, ?_, ?_⟩
    · intro d be
      unfold wsMu
      rw [if_pos ha, mul_one, mul_one]
      ring
    · intro d be
      unfold wsMu
      rw [if_pos ha]
      ring
    · unfold wsSkew
      simp only [if_pos ha]
      by_cases hd : |2 / π * (gamma * 2) * log (gamma * 2) - 2 * (2 / π * gamma * log gamma)| < 1 / 10 ^ 8
      · simp only [if_pos hd]
        exact ⟨by ring, Or.inl trivial⟩
      · simp only [if_neg hd]
        exact ⟨trivial, Or.inr ⟨hne hd, trivial⟩⟩
  · refine ⟨tan (1 / 2 * π * alpha) * (gamma ^ alpha - gamma), tan (1 / 2 * π * alpha) * ((gamma * 2) ^ alpha - gamma * 2), ?_, ?_, ?_⟩
    · intro d be
      unfold wsMu
      rw [if_neg ha, mul_one, mul_one]
      ring
    · intro d be
      unfold wsMu
      rw [if_neg ha]
      ring
    · unfold wsSkew
      simp only [if_neg ha]
      have e : tan (1 / 2 * π * alpha) * ((gamma * 2) ^ alpha - gamma * 2) - 2 * (tan (1 / 2 * π * alpha) * (gamma ^ alpha - gamma))
          = tan (1 / 2 * π * alpha) * ((gamma * 2) ^ alpha - gamma * 2 - 2 * (gamma ^ alpha - gamma)) := by ring
      rw [e]
      by_cases hd : |tan (1 / 2 * π * alpha) * ((gamma * 2) ^ alpha - gamma * 2 - 2 * (gamma ^ alpha - gamma))| < 1 / 10 ^ 8
      · simp only [if_pos hd]
        exact ⟨by ring, Or.inl trivial⟩
      · simp only [if_neg hd]
        exact ⟨by ring, Or.inr ⟨hne hd, trivial⟩⟩

/-- The scale step: the lengths are reproduced. -/
lemma wsScale_eq {b : WSBounds} (hb0 : 0 < b.alpha.1) (hba : b.alpha.1 ≤ b.alpha.2) {R1 R2 : ℝ}
    (h1 : 1 / 10 ^ 9 < R1 ∧ R1 < 1 - 1 / 10 ^ 6) (h2 : 1 / 10 ^ 9 < R2 ∧ R2 < 1 - 1 / 10 ^ 6)
    (hg0 : b.gamma.1 < (wsScale b R1 R2).2) (hg1 : (wsScale b R1 R2).2 < b.gamma.2) :
    0 < (wsScale b R1 R2).1 ∧ 0 < (wsScale b R1 R2).2 ∧
      exp (-((wsScale b R1 R2).2 ^ (wsScale b R1 R2).1)) = R1 ∧
      (b.alpha.1 < (wsScale b R1 R2).1 → (wsScale b R1 R2).1 < b.alpha.2 →
        exp (-(((wsScale b R1 R2).2 * 2) ^ (wsScale b R1 R2).1)) = R2) := by
  have e : wsScale b R1 R2 = (clip ((log (-log R2) - log (-log R1)) / log 2) b.alpha.1 b.alpha.2,
      clip (exp (log (-log R1) / clip ((log (-log R2) - log (-log R1)) / log 2) b.alpha.1 b.alpha.2)) b.gamma.1 b.gamma.2) := by
    unfold wsScale
    simp only
    rw [ws_clip_eq h1.1.le (h1.2.le.trans (by norm_num)), ws_clip_eq h2.1.le (h2.2.le.trans (by norm_num)),
      if_neg (by push Not; exact ⟨h1.2, h2.2⟩)]
  rw [e] at hg0 hg1 ⊢
  simp only at hg0 hg1 ⊢
  obtain ⟨a, hadef⟩ : ∃ a, a = clip ((log (-log R2) - log (-log R1)) / log 2) b.alpha.1 b.alpha.2 := ⟨_, rfl⟩
  rw [← hadef] at hg0 hg1 ⊢
  have hapos : 0 < a := by rw [hadef]; exact hb0.trans_le (clip_mem hba).1
  rw [ws_clip_inner hg0 hg1]
  have hR1 : 0 < R1 := lt_trans (by norm_num) h1.1
  have hR2 : 0 < R2 := lt_trans (by norm_num) h2.1
  have l1 : 0 < -log R1 := by have := log_neg hR1 (h1.2.trans (by norm_num)); linarith
  have l2 : 0 < -log R2 := by have := log_neg hR2 (h2.2.trans (by norm_num)); linarith
  have p1 : exp (log (-log R1) / a) ^ a = -log R1 := by
    rw [← exp_mul, div_mul_cancel₀ _ hapos.ne', exp_log l1]
  refine ⟨hapos, exp_pos _, ?_, fun ha0 ha1 => ?_⟩
  · rw [p1, neg_neg, exp_log hR1]
  · have ha' : a = (log (-log R2) - log (-log R1)) / log 2 := by
      rw [hadef] at ha0 ha1
      rw [hadef]
      exact ws_clip_inner ha0 ha1
    rw [mul_rpow (exp_pos _).le zero_le_two, p1]
    have : (2 : ℝ) ^ a = -log R2 / -log R1 := by
      rw [rpow_def_of_pos zero_lt_two, ha', mul_div_cancel₀ _ (log_pos one_lt_two).ne', exp_sub, exp_log l1, exp_log l2]
    rw [this, mul_div_cancel₀ _ l1.ne', neg_neg, exp_log hR2]

lemma ws_polar (z : ℂ) (a : ℝ) (k : ℤ) (h : a = Complex.arg z + 2 * π * k) : ‖z‖ * cos a = z.re ∧ ‖z‖ * sin a = z.im := by
  rw [h, show Complex.arg z + 2 * π * k = Complex.arg z + k * (2 * π) by ring, cos_add_int_mul_two_pi, sin_add_int_mul_two_pi]
  exact ⟨Complex.norm_mul_cos_arg z, Complex.norm_mul_sin_arg z⟩

/-- **C115.** The moment fit of the wrapped stable distribution. If the sample has mean resultant lengths between `1e-9` and
`1 - 1e-6`, and `gamma` is not at its bounds, the fitted density has exactly the first trigonometric moment of the
sample; if `alpha` and `beta` are not at their bounds either and `beta` is not zero, also exactly the second. -/
theorem C115_fit_moments {minimize : String → (WS → Option ℝ) → WS → MinResult 4} {b : WSBounds}
    (ha0 : 0 < b.alpha.1) (ha1 : b.alpha.1 ≤ b.alpha.2) (ha2 : b.alpha.2 ≤ 2) (hb0 : -1 < b.beta.1) (hb1 : b.beta.1 ≤ b.beta.2)
    (hb2 : b.beta.2 < 1) {data : List ℝ}
    (hdata : ∀ x ∈ data, RegularAngle x) {weights : Option (List ℝ)} {optimizer : String} {s : WS}
    (h : wsFit minimize b data weights "moments" optimizer = .ok s) {m1 m2 : ℂ}
    (hm1 : m1 = moment data (fullWeights data.length weights) 1) (hm2 : m2 = moment data (fullWeights data.length weights) 2)
    (h1 : 1 / 10 ^ 9 < ‖m1‖ ∧ ‖m1‖ < 1 - 1 / 10 ^ 6) (h2 : 1 / 10 ^ 9 < ‖m2‖ ∧ ‖m2‖ < 1 - 1 / 10 ^ 6)
    (hg : b.gamma.1 < s.gamma ∧ s.gamma < b.gamma.2) :
    ∃ g : ℝ → ℝ, (∀ x, RegularAngle x → distPdf wrapstable x s = some (g x)) ∧
      ∫ x in (0 : ℝ)..(2 * π), cos x * g x = m1.re ∧ ∫ x in (0 : ℝ)..(2 * π), sin x * g x = m1.im ∧
      (b.alpha.1 < s.alpha ∧ s.alpha < b.alpha.2 → b.beta.1 < s.beta ∧ s.beta < b.beta.2 → s.beta ≠ 0 →
        ∫ x in (0 : ℝ)..(2 * π), cos (2 * x) * g x = m2.re ∧ ∫ x in (0 : ℝ)..(2 * π), sin (2 * x) * g x = m2.im) := by
  obtain ⟨w, hw, rfl⟩ := wsFit_moments hdata h
  rw [fitWeights_full hw, ← ws_moment_one] at hm1
  rw [fitWeights_full hw, ← ws_moment_two] at hm2
  have hs0 : wsMomentEst b data w = ⟨pymod (wsSkew b (wsScale b ‖m1‖ ‖m2‖).1 (wsScale b ‖m1‖ ‖m2‖).2 (Complex.arg m1)
      (wsUnwrap (Complex.arg m1) (Complex.arg m2))).2 (2 * π), (wsScale b ‖m1‖ ‖m2‖).1,
      (wsSkew b (wsScale b ‖m1‖ ‖m2‖).1 (wsScale b ‖m1‖ ‖m2‖).2 (Complex.arg m1)
      (wsUnwrap (Complex.arg m1) (Complex.arg m2))).1, (wsScale b ‖m1‖ ‖m2‖).2⟩ := by
    rw [hm1, hm2]; rfl
  obtain ⟨s, hs⟩ : ∃ s, s = wsMomentEst b data w := ⟨_, rfl⟩
  rw [← hs] at hg hs0 ⊢
  obtain ⟨k2, hk2⟩ := ws_round_cong (Complex.arg m1) (Complex.arg m2)
  have hsr := wsSkew_range hb1 (wsScale b ‖m1‖ ‖m2‖).1 (wsScale b ‖m1‖ ‖m2‖).2 (Complex.arg m1)
      (wsUnwrap (Complex.arg m1) (Complex.arg m2))
  obtain ⟨C1, C2, hC1, hC2, hd, hbeta⟩ := wsSkew_eq b (wsScale b ‖m1‖ ‖m2‖).1 (wsScale b ‖m1‖ ‖m2‖).2 (Complex.arg m1)
      (wsUnwrap (Complex.arg m1) (Complex.arg m2))
  have ea : s.alpha = (wsScale b ‖m1‖ ‖m2‖).1 := by rw [hs0]
  have eg : s.gamma = (wsScale b ‖m1‖ ‖m2‖).2 := by rw [hs0]
  have eb : s.beta = (wsSkew b (wsScale b ‖m1‖ ‖m2‖).1 (wsScale b ‖m1‖ ‖m2‖).2 (Complex.arg m1)
      (wsUnwrap (Complex.arg m1) (Complex.arg m2))).1 := by rw [hs0]
  have ed : s.delta = pymod (wsSkew b (wsScale b ‖m1‖ ‖m2‖).1 (wsScale b ‖m1‖ ‖m2‖).2 (Complex.arg m1)
      (wsUnwrap (Complex.arg m1) (Complex.arg m2))).2 (2 * π) := by rw [hs0]
  obtain ⟨p1, p2, p3, p4⟩ := wsScale_eq ha0 ha1 h1 h2 (by rw [← eg]; exact hg.1) (by rw [← eg]; exact hg.2)
  rw [← eb] at hsr hbeta
  rw [hd, ← eb] at ed
  rw [← ea, ← eg] at p3 p4
  rw [← ea] at p1
  rw [← eg] at p2
  have hale : s.alpha ≤ 2 := by
    rw [ea]
    have hcl : (wsScale b ‖m1‖ ‖m2‖).1 ≤ b.alpha.2 ∨ (wsScale b ‖m1‖ ‖m2‖).1 = 1 := by
      unfold wsScale
      simp only
      split_ifs
      · exact Or.inr rfl
      · exact Or.inl (clip_mem ha1).2
    rcases hcl with hcl | hcl
    · exact hcl.trans ha2
    · rw [hcl]; norm_num
  have harg : wsArgcheck s := by
    refine ⟨?_, ⟨p1, hale⟩, ?_, p2⟩
    · rw [ed]; exact ⟨pymod_nonneg two_pi_pos _, (pymod_lt two_pi_pos _).le⟩
    · rcases hsr with hsr | hsr
      · exact ⟨by linarith [hsr.1], by linarith [hsr.2]⟩
      · rw [hsr]; norm_num
  obtain ⟨j, hj⟩ := pymod_form (Complex.arg m1 - s.beta * C1)
  have hmu1 : wsMu s 1 = s.delta + s.beta * C1 := by
    rw [← ea, ← eg] at hC1
    exact hC1 s.delta s.beta
  have hmu2 : wsMu s 2 = 2 * s.delta + s.beta * C2 := by
    rw [← ea, ← eg] at hC2
    exact hC2 s.delta s.beta
  have hr1 : wsRho s 1 = ‖m1‖ := by unfold wsRho; rw [mul_one]; exact p3
  refine ⟨fun x => wsPdf x s, fun x hx => distPdf_regular wrapstable harg hx, ?_, ?_, ?_⟩
  · have hc := wsPdf_cos s 0
    rw [if_pos (wsOrder_pos harg)] at hc
    simp only [Nat.cast_zero, zero_add, one_mul] at hc
    rw [hc, hr1]
    refine (ws_polar m1 _ j ?_).1
    rw [hmu1, ed, hj]; ring
  · have hc := wsPdf_sin s 0
    rw [if_pos (wsOrder_pos harg)] at hc
    simp only [Nat.cast_zero, zero_add, one_mul] at hc
    rw [hc, hr1]
    refine (ws_polar m1 _ j ?_).2
    rw [hmu1, ed, hj]; ring
  · intro hain hbin hbne
    have ho : 1 + 1 ≤ wsOrder s := (wsOrder_iff harg 1).2 ⟨by norm_num, by
      rw [Nat.cast_one, hr1]
      exact lt_trans (by norm_num) h1.1⟩
    have hr2 : wsRho s 2 = ‖m2‖ := p4 hain.1 hain.2
    have hC : s.beta * (C2 - 2 * C1) = wsUnwrap (Complex.arg m1) (Complex.arg m2) - 2 * Complex.arg m1 := by
      rcases hbeta with hbeta | ⟨hne, hbeta⟩
      · exact absurd hbeta hbne
      · have : s.beta = (wsUnwrap (Complex.arg m1) (Complex.arg m2) - 2 * Complex.arg m1) / (C2 - 2 * C1) := by
          rw [hbeta] at hbin ⊢
          exact ws_clip_inner hbin.1 hbin.2
        rw [this, div_mul_cancel₀ _ hne]
    have hph : wsMu s 2 = Complex.arg m2 + 2 * π * ((k2 + 2 * j : ℤ) : ℝ) := by
      rw [hmu2, ed, hj]
      push_cast
      rw [hk2] at hC
      linear_combination hC
    have hc := wsPdf_cos s 1
    have hsn := wsPdf_sin s 1
    rw [if_pos ho] at hc hsn
    simp only [Nat.cast_one, show (1 : ℝ) + 1 = 2 by norm_num] at hc hsn
    rw [hc, hsn, hr2]
    exact ws_polar m2 _ _ hph


/-- The estimates from 400 observations in four directions: `alpha = 1`, `gamma = log 2`, and `beta` within its bounds. Both
sample moments are reproduced. -/
example (minimize : String → (WS → Option ℝ) → WS → MinResult 4) (optimizer : String) :
    ∃ s, wsFit minimize wsDefaultBounds [0, π / 2, π, 3 * π / 2] (some [221, 103, 29, 47]) "moments" optimizer = .ok s ∧
      s.alpha = 1 ∧ s.gamma = log 2 ∧ -99 / 100 < s.beta ∧ s.beta < 0 ∧
      ∃ g : ℝ → ℝ, (∀ x, RegularAngle x → distPdf wrapstable x s = some (g x)) ∧
        ∫ x in (0 : ℝ)..(2 * π), cos x * g x = 12 / 25 ∧ ∫ x in (0 : ℝ)..(2 * π), sin x * g x = 7 / 50 ∧
        ∫ x in (0 : ℝ)..(2 * π), cos (2 * x) * g x = 1 / 4 ∧ ∫ x in (0 : ℝ)..(2 * π), sin (2 * x) * g x = 0 := by
  have hpi := pi_gt_three
  have hpi' := pi_lt_d2
  have hl2 := log_two_gt_d9
  have hl2' := log_two_lt_d9
  have hdata : ∀ x ∈ [0, π / 2, π, 3 * π / 2], RegularAngle x := by
    intro x hx
    simp only [List.mem_cons, List.not_mem_nil, or_false] at hx
    have hsm : (1 : ℝ) / 10 ^ 14 ≤ 1 := by norm_num
    rcases hx with rfl | rfl | rfl | rfl
    · exact ⟨le_refl _, Or.inl (by linarith)⟩
    · exact ⟨by linarith, Or.inl (by linarith)⟩
    · exact ⟨by linarith, Or.inl (by linarith)⟩
    · exact ⟨by linarith, Or.inl (by linarith)⟩
  have hw : fitWeights 4 (some [221, 103, 29, 47]) = .ok [221, 103, 29, 47] := by
    unfold fitWeights broadcastTo
    norm_num
  have c1 : cos (3 * π / 2) = 0 := by rw [show 3 * π / 2 = π / 2 + π by ring, cos_add_pi, cos_pi_div_two, neg_zero]
  have c2 : sin (3 * π / 2) = -1 := by rw [show 3 * π / 2 = π / 2 + π by ring, sin_add_pi, sin_pi_div_two]
  have c3 : cos (2 * (3 * π / 2)) = -1 := by rw [show 2 * (3 * π / 2) = π + 2 * π by ring, cos_add_two_pi, cos_pi]
  have c4 : sin (2 * (3 * π / 2)) = 0 := by rw [show 2 * (3 * π / 2) = π + 2 * π by ring, sin_add_two_pi, sin_pi]
  have c5 : 2 * (π / 2) = π := by ring
  have hm1 : wsMoment [0, π / 2, π, 3 * π / 2] [221, 103, 29, 47] 1 = ⟨12 / 25, 7 / 50⟩ := by
    unfold wsMoment
    simp only [List.zipWith_cons_cons, List.zipWith_nil_left, List.sum_cons, List.sum_nil, one_mul, cos_zero, sin_zero,
      cos_pi_div_two, sin_pi_div_two, cos_pi, sin_pi, c1, c2]
    norm_num
  have hm2 : wsMoment [0, π / 2, π, 3 * π / 2] [221, 103, 29, 47] 2 = ⟨1 / 4, 0⟩ := by
    unfold wsMoment
    simp only [List.zipWith_cons_cons, List.zipWith_nil_left, List.sum_cons, List.sum_nil, mul_zero, cos_zero, sin_zero,
      c5, cos_pi, sin_pi, cos_two_pi, sin_two_pi, c3, c4]
    norm_num
  have hn1 : ‖(⟨12 / 25, 7 / 50⟩ : ℂ)‖ = 1 / 2 := by
    rw [Complex.norm_def, Complex.normSq_mk, show (12 : ℝ) / 25 * (12 / 25) + 7 / 50 * (7 / 50) = (1 / 2) ^ 2 by norm_num,
      sqrt_sq (by norm_num)]
  have hn2 : ‖(⟨1 / 4, 0⟩ : ℂ)‖ = 1 / 4 := by
    rw [Complex.norm_def, Complex.normSq_mk, show (1 : ℝ) / 4 * (1 / 4) + 0 * 0 = (1 / 4) ^ 2 by norm_num,
      sqrt_sq (by norm_num)]
  have ha1 : Complex.arg ⟨12 / 25, 7 / 50⟩ = arcsin (7 / 25) := by
    rw [Complex.arg_of_re_nonneg (by norm_num), hn1]
    norm_num
  have ha2 : Complex.arg ⟨1 / 4, 0⟩ = 0 := by
    rw [Complex.arg_of_re_nonneg (by norm_num), hn2]
    norm_num
  have hl1 : log (1 / 2) = -log 2 := by rw [one_div, log_inv]
  have hl4 : log (1 / 4) = -(2 * log 2) := by
    rw [one_div, log_inv, show (4 : ℝ) = 2 ^ 2 by norm_num, log_pow]; norm_num
  have hsc : wsScale wsDefaultBounds (1 / 2) (1 / 4) = (1, log 2) := by
    unfold wsScale wsDefaultBounds
    simp only
    rw [ws_clip_eq (v := 1 / 2) (by norm_num) (by norm_num), ws_clip_eq (v := 1 / 4) (by norm_num) (by norm_num), if_neg (by norm_num),
      hl1, hl4, neg_neg, neg_neg, log_mul two_ne_zero (by linarith), add_sub_cancel_right, div_self (by linarith),
      ws_clip_eq (v := (1 : ℝ)) (by norm_num) (by norm_num), div_one, exp_log (by linarith), ws_clip_eq (by linarith) (by linarith)]
  obtain ⟨phi, hphi⟩ : ∃ phi, phi = arcsin (7 / 25) := ⟨_, rfl⟩
  have hph0 : 0 < phi := by rw [hphi]; exact arcsin_pos.2 (by norm_num)
  have hph1 : phi < 7 / 24 := by
    rw [hphi]
    refine (arcsin_lt_iff_lt_sin' ⟨by linarith, by linarith⟩).2 ?_
    have := sin_gt_sub_cube (x := 7 / 24) (by norm_num)
    refine lt_of_lt_of_le ?_ this.le
    norm_num
  have hun : wsUnwrap phi 0 = 0 := by
    unfold wsUnwrap
    have : round ((2 * phi - 0) / (2 * π)) = 0 := by
      rw [round_eq_zero_iff]
      constructor
      · have : 0 ≤ (2 * phi - 0) / (2 * π) := by rw [sub_zero]; positivity
        linarith
      · rw [div_lt_iff₀ (by positivity)]; linarith
    rw [this]
    simp
  have hden : 2 / π * (log 2 * 2) * log (log 2 * 2) - 2 * (2 / π * log 2 * log (log 2)) = 4 / π * log 2 ^ 2 := by
    rw [log_mul (by linarith) two_ne_zero]; ring
  have hdpos : 6 / 10 < 4 / π * log 2 ^ 2 := by
    rw [div_mul_eq_mul_div, lt_div_iff₀ (by positivity)]
    nlinarith
  have hsk : (wsSkew wsDefaultBounds 1 (log 2) phi 0).1 = -2 * phi / (4 / π * log 2 ^ 2) := by
    unfold wsSkew wsDefaultBounds
    simp only [sub_self, abs_zero]
    rw [if_pos (by norm_num), hden, if_neg (by rw [abs_of_pos (by linarith)]; push Not; exact le_trans (by norm_num) hdpos.le)]
    simp only
    rw [show 0 - 2 * phi = -2 * phi by ring]
    refine ws_clip_eq ?_ ?_
    · rw [le_div_iff₀ (by linarith)]; nlinarith
    · rw [div_le_iff₀ (by linarith)]; nlinarith
  obtain ⟨s, hs⟩ : ∃ s, s = wsMomentEst wsDefaultBounds [0, π / 2, π, 3 * π / 2] [221, 103, 29, 47] := ⟨_, rfl⟩
  have hfit : wsFit minimize wsDefaultBounds [0, π / 2, π, 3 * π / 2] (some [221, 103, 29, 47]) "moments" optimizer = .ok s := by
    unfold wsFit
    simp only [map_wrap_regular hdata, bind, Except.bind, List.length_cons, List.length_nil]
    rw [hw]
    simp [hs]
  have hsa : s.alpha = 1 := by
    rw [hs]; unfold wsMomentEst; simp only [hm1, hm2, hn1, hn2, hsc]
  have hsg : s.gamma = log 2 := by
    rw [hs]; unfold wsMomentEst; simp only [hm1, hm2, hn1, hn2, hsc]
  have hsb : s.beta = -2 * phi / (4 / π * log 2 ^ 2) := by
    rw [← hsk, hs]; unfold wsMomentEst; simp only [hm1, hm2, hn1, hn2, hsc, ha1, ha2, ← hphi, hun]
  have hb1 : -99 / 100 < s.beta := by
    rw [hsb, lt_div_iff₀ (by linarith)]; nlinarith
  have hb2 : s.beta < 0 := by
    rw [hsb, div_lt_iff₀ (by linarith)]; linarith
  have f1 : moment [0, π / 2, π, 3 * π / 2] (fullWeights [0, π / 2, π, 3 * π / 2].length (some [221, 103, 29, 47])) 1 = ⟨12 / 25, 7 / 50⟩ := by
    rw [← hm1, ws_moment_one]; rfl
  have f2 : moment [0, π / 2, π, 3 * π / 2] (fullWeights [0, π / 2, π, 3 * π / 2].length (some [221, 103, 29, 47])) 2 = ⟨1 / 4, 0⟩ := by
    rw [← hm2, ws_moment_two]; rfl
  obtain ⟨g, hg, i1, i2, i3⟩ := C115_fit_moments (minimize := minimize) (b := wsDefaultBounds) (optimizer := optimizer)
    (show (0 : ℝ) < 1 / 10 ^ 3 by norm_num) (show (1 : ℝ) / 10 ^ 3 ≤ 2 by norm_num) (le_refl (2 : ℝ))
    (show (-1 : ℝ) < -99 / 100 by norm_num) (show (-99 : ℝ) / 100 ≤ 99 / 100 by norm_num) (show (99 : ℝ) / 100 < 1 by norm_num)
    hdata hfit rfl rfl
    (by rw [f1, hn1]; norm_num)
    (by rw [f2, hn2]; norm_num)
    (by rw [hsg]; show (1 : ℝ) / 10 ^ 6 < log 2 ∧ log 2 < 10; constructor <;> linarith)
  obtain ⟨i3, i4⟩ := i3 (by rw [hsa]; show (1 : ℝ) / 10 ^ 3 < 1 ∧ (1 : ℝ) < 2; norm_num)
    (by show (-99 : ℝ) / 100 < s.beta ∧ s.beta < 99 / 100; exact ⟨hb1, by linarith⟩) hb2.ne
  rw [f1] at i1 i2
  rw [f2] at i3 i4
  exact ⟨s, hfit, hsa, hsg, hb1, hb2, g, hg, i1, i2, i3, i4⟩

/-! ## C109: maximum likelihood -/

/-- The parameters within the bounds of the fit, with the location on the circle. -/
def wsBox (b : WSBounds) : Set WS :=
  {t | (0 ≤ t.delta ∧ t.delta ≤ 2 * π) ∧ (b.alpha.1 ≤ t.alpha ∧ t.alpha ≤ b.alpha.2) ∧ (b.beta.1 ≤ t.beta ∧ t.beta ≤ b.beta.2) ∧
    (b.gamma.1 ≤ t.gamma ∧ t.gamma ≤ b.gamma.2)}

lemma wsPdf_delta (x : ℝ) (s : WS) (k : ℤ) : wsPdf x { s with delta := s.delta + k * (2 * π) } = wsPdf x s := by
  unfold wsPdf
  rw [wsOrder_congr (s := { s with delta := s.delta + k * (2 * π) }) (s' := s) rfl rfl]
  congr 3
  refine Finset.sum_congr rfl fun i _ => ?_
  have : ((i : ℝ) + 1) * x - wsMu { s with delta := s.delta + k * (2 * π) } (i + 1)
      = (i + 1) * x - wsMu s (i + 1) - ((k * (i + 1) : ℤ) : ℝ) * (2 * π) := by
    unfold wsMu
    dsimp only
    push_cast
    split_ifs <;> ring
  rw [this, cos_sub_int_mul_two_pi]
  rfl

lemma wsNll_some {b : WSBounds} {x w : List ℝ} {t : WS} {v : ℝ} (h : wsNll b x w t = some v) :
    t ∈ wsBox b ∧ (∀ xi ∈ x, 0 < wsPdf xi t) ∧ v = -(List.zipWith (fun xi wi => wi * log (wsPdf xi t)) x w).sum := by
  unfold wsNll at h
  split_ifs at h with h1 h2 h3 h4 h5
  push Not at h5
  exact ⟨⟨h1, h2, h3, h4⟩, h5, (Option.some.inj h).symm⟩

lemma wsNll_eq {b : WSBounds} {x : List ℝ} (w : List ℝ) {t : WS} (h : t ∈ wsBox b) (hp : ∀ xi ∈ x, 0 < wsPdf xi t) :
    wsNll b x w t = some (-(List.zipWith (fun xi wi => wi * log (wsPdf xi t)) x w).sum) := by
  obtain ⟨h1, h2, h3, h4⟩ := h
  unfold wsNll
  rw [if_neg (not_not.2 h1), if_neg (not_not.2 h2), if_neg (not_not.2 h3), if_neg (not_not.2 h4),
    if_neg (by push Not; exact hp)]

/-- The bounds allow only parameters that the distribution accepts. -/
def WSBounds.Admissible (b : WSBounds) : Prop :=
  0 < b.alpha.1 ∧ b.alpha.2 ≤ 2 ∧ -1 < b.beta.1 ∧ b.beta.2 < 1 ∧ 0 < b.gamma.1

lemma wsBox_arg {b : WSBounds} (hb : b.Admissible) {t : WS} (ht : t ∈ wsBox b) : wsArgcheck t := by
  obtain ⟨h1, h2, h3, h4⟩ := ht
  obtain ⟨b1, b2, b3, b4, b5⟩ := hb
  exact ⟨h1, ⟨b1.trans_le h2.1, h2.2.trans b2⟩, ⟨b3.trans_le h3.1, h3.2.trans_lt b4⟩, b5.trans_le h4.1⟩

lemma ws_logLik {data w : List ℝ} (hdata : ∀ x ∈ data, RegularAngle x) {t : WS} (ht : wsArgcheck t) :
    logLik (fun y => distPdf wrapstable y t) data w = (List.zipWith (fun xi wi => wi * log (wsPdf xi t)) data w).sum := by
  unfold logLik
  induction data generalizing w with
  | nil => simp
  | cons a l ih =>
    cases w with
    | nil => simp
    | cons v w =>
      rw [List.zipWith_cons_cons, List.zipWith_cons_cons, List.sum_cons, List.sum_cons, ih fun x hx => hdata x (List.mem_cons_of_mem _ hx)]
      dsimp only
      rw [show distPdf wrapstable a t = _ from distPdf_regular wrapstable ht (hdata a List.mem_cons_self)]
      rfl

lemma ws_positive {data : List ℝ} (hdata : ∀ x ∈ data, RegularAngle x) {t : WS} (ht : wsArgcheck t) :
    PositiveOn (fun y => distPdf wrapstable y t) data ↔ ∀ xi ∈ data, 0 < wsPdf xi t := by
  unfold PositiveOn
  refine forall₂_congr fun x hx => ?_
  dsimp only
  rw [distPdf_regular wrapstable ht (hdata x hx)]
  constructor
  · rintro ⟨v, hv, h0⟩
    rw [← Option.some.inj hv] at h0; exact h0
  · exact fun h => ⟨_, rfl, h⟩

/-- A value of the objective at the optimiser's result is minus the log-likelihood of the estimates made from it. -/
lemma ws_result {b : WSBounds} (hb : b.Admissible) {data w : List ℝ} (hdata : ∀ x ∈ data, RegularAngle x)
    {r : MinResult 4} {v : ℝ} (hv : wsNll b data w ⟨r.x 0, r.x 1, r.x 2, r.x 3⟩ = some v) {s : WS}
    (hs : s = ⟨pymod (r.x 0) (2 * π), clip (r.x 1) b.alpha.1 b.alpha.2,
        clip (r.x 2) b.beta.1 b.beta.2, clip (r.x 3) b.gamma.1 b.gamma.2⟩) :
    s ∈ wsBox b ∧ PositiveOn (fun y => distPdf wrapstable y s) data ∧ v = -logLik (fun y => distPdf wrapstable y s) data w := by
  obtain ⟨hin, hpos, hval⟩ := wsNll_some hv
  obtain ⟨h1, h2, h3, h4⟩ := hin
  simp only at h1 h2 h3 h4
  obtain ⟨k, hk⟩ := pymod_form (r.x 0)
  have hs' : s = { (⟨r.x 0, r.x 1, r.x 2, r.x 3⟩ : WS) with delta := r.x 0 + k * (2 * π) } := by
    rw [hs, ws_clip_eq h2.1 h2.2, ws_clip_eq h3.1 h3.2, ws_clip_eq h4.1 h4.2, hk]
  have hp : ∀ x, wsPdf x s = wsPdf x ⟨r.x 0, r.x 1, r.x 2, r.x 3⟩ := fun x => by
    rw [hs']; exact wsPdf_delta x ⟨r.x 0, r.x 1, r.x 2, r.x 3⟩ k
  have hbox : s ∈ wsBox b := by
    rw [hs, ws_clip_eq h2.1 h2.2, ws_clip_eq h3.1 h3.2, ws_clip_eq h4.1 h4.2]
    exact ⟨⟨pymod_nonneg two_pi_pos _, (pymod_lt two_pi_pos _).le⟩, h2, h3, h4⟩
  have ha := wsBox_arg hb hbox
  refine ⟨hbox, (ws_positive hdata ha).2 fun x hx => by rw [hp]; exact hpos x hx, ?_⟩
  rw [ws_logLik hdata ha]
  simp only [hp]
  exact hval

/-- **C109.** Wrapped stable distribution: if a successful optimiser (the named one or the fallback) returns a minimum of
its objective, the estimates maximise the weighted likelihood of `pdf` within the bounds. -/
theorem C109_wrapstable (minimize : String → (WS → Option ℝ) → WS → MinResult 4)
    (hopt : ∀ name obj start, (minimize name obj start).success = true →
      IsMinimum obj ⟨(minimize name obj start).x 0, (minimize name obj start).x 1, (minimize name obj start).x 2,
        (minimize name obj start).x 3⟩)
    (b : WSBounds) (hb : b.Admissible) (data : List ℝ) (hdata : ∀ x ∈ data, RegularAngle x) (weights : Option (List ℝ))
    (optimizer : String) (s : WS) (h : wsFit minimize b data weights "mle" optimizer = .ok s) :
    MaximisesLikelihood (fun y t => distPdf wrapstable y t) (wsBox b) data (fullWeights data.length weights) s := by
  obtain ⟨w, hw, name, r, hr, hsu, hs⟩ := wsFit_mle hdata (by decide) h
  rw [fitWeights_full hw]
  obtain ⟨v, hv, hmin⟩ := hopt name _ _ (by rw [← hr]; exact hsu)
  rw [← hr] at hv
  obtain ⟨h1, h2, h3⟩ := ws_result hb hdata hv hs
  refine ⟨h1, h2, fun t ht hp => ?_⟩
  have ha := wsBox_arg hb ht
  have e1 := hmin t _ (wsNll_eq w ht ((ws_positive hdata ha).1 hp))
  show logLik (fun y => distPdf wrapstable y t) data w ≤ logLik (fun y => distPdf wrapstable y s) data w
  rw [ws_logLik hdata ha]
  linarith

lemma wsStart_best (nll : WS → Option ℝ) (l : List WS) (a : WS) : ∀ c ∈ a :: l, ∀ v, nll c = some v →
    ∃ u, nll (wsStart nll a l) = some u ∧ u ≤ v := by
  unfold wsStart
  induction l generalizing a with
  | nil => intro c hc v hv; rw [List.mem_singleton] at hc; exact ⟨v, by simpa [← hc] using hv, le_refl _⟩
  | cons d l ih =>
    intro c hc v hv
    rw [List.foldl_cons]
    by_cases hlt : infLt (nll d) (nll a)
    · rw [if_pos hlt]
      rcases List.mem_cons.1 hc with rfl | hc
      · rcases hb : nll d with _ | u
        · rw [hb] at hlt; exact absurd hlt (by simp [infLt])
        · rw [hb, hv] at hlt
          obtain ⟨u', h1, h2⟩ := ih d d List.mem_cons_self u hb
          rw [hb] at h1
          exact ⟨u', h1, h2.trans (le_of_lt hlt)⟩
      · exact ih d c hc v hv
    · rw [if_neg hlt]
      rcases List.mem_cons.1 hc with rfl | hc
      · exact ih c c List.mem_cons_self v hv
      · rcases List.mem_cons.1 hc with rfl | hc
        · rcases ha : nll a with _ | u
          · rw [ha, hv] at hlt; exact absurd trivial hlt
          · rw [ha, hv] at hlt
            obtain ⟨u', h1, h2⟩ := ih a a List.mem_cons_self u ha
            rw [ha] at h1
            exact ⟨u', h1, h2.trans (not_lt.1 hlt)⟩
        · exact ih a c (List.mem_cons_of_mem _ hc) v hv

/-- **C109.** If the optimisers never end at a point worse than the start, the maximum likelihood estimates are at least as
likely as the moment estimates, and as the same estimates with `beta` replaced by 0, or `alpha` by 1, or both, when
these are within the bounds and give every observation a positive density. -/
theorem C109_wrapstable_improves (minimize : String → (WS → Option ℝ) → WS → MinResult 4)
    (hopt : ∀ name obj start, (minimize name obj start).success = true →
      NotWorse obj start ⟨(minimize name obj start).x 0, (minimize name obj start).x 1, (minimize name obj start).x 2,
        (minimize name obj start).x 3⟩)
    (b : WSBounds) (hb : b.Admissible) (data : List ℝ) (hdata : ∀ x ∈ data, RegularAngle x) (weights : Option (List ℝ))
    (optimizer : String) (s0 s : WS) (h0 : wsFit minimize b data weights "moments" optimizer = .ok s0)
    (h : wsFit minimize b data weights "mle" optimizer = .ok s) (alpha beta : ℝ) (hal : alpha = s0.alpha ∨ alpha = 1)
    (hbe : beta = s0.beta ∨ beta = 0) (hin : (⟨s0.delta, alpha, beta, s0.gamma⟩ : WS) ∈ wsBox b)
    (hpos : PositiveOn (fun y => distPdf wrapstable y ⟨s0.delta, alpha, beta, s0.gamma⟩) data) :
    logLik (fun y => distPdf wrapstable y ⟨s0.delta, alpha, beta, s0.gamma⟩) data (fullWeights data.length weights)
      ≤ logLik (fun y => distPdf wrapstable y s) data (fullWeights data.length weights) := by
  obtain ⟨w, hw, name, r, hr, hsu, hs⟩ := wsFit_mle hdata (by decide) h
  obtain ⟨w', hw', e0⟩ := wsFit_moments hdata h0
  rw [hw] at hw'
  cases hw'
  rw [fitWeights_full hw]
  rw [← e0] at hr
  have ha := wsBox_arg hb hin
  have hv0 := wsNll_eq w hin ((ws_positive hdata ha).1 hpos)
  obtain ⟨i1, i2, i3, i4⟩ := hin
  simp only at i1 i2 i3 i4
  have hd : pymod s0.delta (2 * π) = s0.delta := by
    have e1 : 0 ≤ s0.delta := i1.1
    have e2 : s0.delta < 2 * π := by rw [e0]; exact pymod_lt two_pi_pos _
    exact pymod_eq_self two_pi_pos e1 e2
  obtain ⟨u, hu, huv⟩ := wsStart_best (wsNll b data w) (wsCandidates b s0 (Complex.arg (wsMoment data w 1))
    (wsUnwrap (Complex.arg (wsMoment data w 1)) (Complex.arg (wsMoment data w 2)))) s0 ⟨s0.delta, alpha, beta, s0.gamma⟩ (by
      refine List.mem_cons_of_mem _ ?_
      unfold wsCandidates
      simp only [List.mem_flatMap, List.mem_map, List.mem_cons, List.not_mem_nil, or_false]
      refine ⟨_, Or.inl rfl, alpha, ⟨alpha, ?_, ws_clip_eq i2.1 i2.2⟩, beta, ⟨beta, ?_, ws_clip_eq i3.1 i3.2⟩, s0.gamma,
        ⟨s0.gamma, Or.inl rfl, ws_clip_eq i4.1 i4.2⟩, by rw [hd]⟩
      · rcases hal with h | h
        · exact Or.inl h
        · exact Or.inr (Or.inl h)
      · rcases hbe with h | h
        · exact Or.inl h
        · exact Or.inr (Or.inl h)) _ hv0
  obtain ⟨v, hv1, hv2⟩ := hopt name _ _ (by rw [← hr]; exact hsu) u hu
  rw [← hr] at hv1
  obtain ⟨-, -, h3⟩ := ws_result hb hdata hv1 hs
  rw [ws_logLik hdata ha]
  linarith

lemma mle_toLower : "mle".toLower = "mle" := by
  rw [← String.toList_inj, String.toLower]
  simp

/-- **C109.** When the named optimiser and the fallback report failure, the fit raises RuntimeError. -/
theorem C109_wrapstable_failure (minimize : String → (WS → Option ℝ) → WS → MinResult 4)
    (hopt : ∀ name obj start, (minimize name obj start).success = false) (b : WSBounds) (data : List ℝ) (hne : data ≠ [])
    (weights : Option (List ℝ)) (w : List ℝ) (hw : fitWeights data.length weights = .ok w) (optimizer : String) :
    wsFit minimize b data weights "mle" optimizer = .error .runtimeError := by
  unfold wsFit
  simp only [List.length_map, hw, bind, Except.bind]
  rw [if_neg (by simpa using hne), if_neg (by decide), if_neg (not_not.2 mle_toLower)]
  simp [hopt]

/-- The default bounds are admissible. -/
example : wsDefaultBounds.Admissible := by
  unfold WSBounds.Admissible wsDefaultBounds
  norm_num

end Verif
