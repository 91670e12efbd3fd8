import Verif.Props.MeanCi
import Verif.Model.HypOne

/-!
# C32, C33: V test and one-sample test for the mean angle
-/

set_option autoImplicit false

namespace Verif.Props

open Verif Verif.Spec Real

private lemma cos_wrap (x : ℝ) : cos (angmodB (-π) π x) = cos x := by
  have h := angmodB_cong (lo := -π) (hi := π) (by linarith [pi_pos]) x
  rw [show π - -π = 2 * π by ring] at h
  exact cos_eq_of_sameDir h

/-- `Σ w_j cos(α_j - θ)`: the component of the resultant vector in direction `θ`. -/
noncomputable def component (alpha w : List ℝ) (angle : ℝ) : ℝ :=
  (List.zipWith (fun a w => w * cos (a - angle)) alpha w).sum

private lemma component_eq (alpha w : List ℝ) (angle : ℝ) :
    component alpha w angle = (Complex.exp ((-angle : ℝ) * Complex.I) * expSum alpha w 1).re := by
  have := zip_cos_sum alpha w 1 angle
  simpa [component] using this

/-- From data with non-negative weights whose total is a positive integer `n`: if the mean resultant
length exceeds 1e-12 then `V` is the sum of the cosines of the deviations from the hypothesised
angle, `|V| ≤ R ≤ n`, `u = V √(2/n)`, and the p value is the normal tail at `u`. -/
theorem C32_V_sample (angle : ℝ) (alpha w : List ℝ) (mean r : Option ℝ) (n' : Option ℤ)
    (sf : ℝ → ℝ) (n : ℕ) (hn : 0 < n) (hlen : w.length = alpha.length) (hw : ∀ x ∈ w, 0 ≤ x)
    (hsum : w.sum = n) (hr : 1 / 10 ^ 12 < ‖moment alpha w 1‖)
    (hnone : mean = none ∨ r = none ∨ n' = none) :
    ∃ res, vTest angle (some alpha) (some w) mean r n' sf = .ok (some res) ∧
      res.V = component alpha w angle ∧ |res.V| ≤ ‖expSum alpha w 1‖ ∧
      ‖expSum alpha w 1‖ ≤ n ∧ res.u = res.V * sqrt (2 / n) ∧ res.pval = sf res.u := by
  have hn' : (0 : ℝ) < n := by exact_mod_cast hn
  have hsum0 : w.sum ≠ 0 := by rw [hsum]; exact hn'.ne'
  have hint : pyInt w.sum = n := by
    rw [pyInt, if_pos (by rw [hsum]; exact hn'.le), hsum, Int.floor_natCast]
  have hlen0 : alpha.length ≠ 0 := by
    intro h
    rw [h] at hlen
    rw [List.length_eq_zero_iff.1 hlen] at hsum0
    simp at hsum0
  have hle1 := norm_moment_le alpha w hw hlen.symm 1
  set m := angmod2pi (Complex.arg (moment alpha w 1)) with hm
  have hcall : vTest angle (some alpha) (some w) mean r n' sf
      = vTestOf angle (some m) ‖moment alpha w 1‖ n sf := by
    have hmr : circMeanAndR alpha w = some (some m, ‖moment alpha w 1‖) := by
      rw [circMeanAndR_eq, if_neg hsum0, if_neg (not_le.2 hr)]
    have : vTest angle (some alpha) (some w) mean r n' sf
        = vTestSample angle (some alpha) (some w) sf := by
      rcases hnone with h | h | h <;> subst h
      · rfl
      · cases mean <;> rfl
      · cases mean <;> cases r <;> rfl
    rw [this]
    simp only [vTestSample, weightsOf, hlen, ne_eq, not_true_eq_false, if_false, Except.bind, hlen0,
      hint, hmr]
    rw [if_neg (by exact_mod_cast hn.not_ge)]
  have hV : (n : ℝ) * ‖moment alpha w 1‖ * cos (angmodB (-π) π (m - angle))
      = component alpha w angle := by
    have hpol := polar_angmod (moment alpha w 1)
    have he : expSum alpha w 1 = (n : ℂ) * moment alpha w 1 := by
      unfold moment
      rw [hsum]
      have : ((n : ℝ) : ℂ) ≠ 0 := by exact_mod_cast hn'.ne'
      push_cast at this ⊢
      field_simp
    rw [cos_wrap, component_eq, he]
    conv_rhs => rw [hpol]
    rw [← hm, show Complex.exp ((-angle : ℝ) * Complex.I) * ((n : ℂ) * ((‖moment alpha w 1‖ : ℂ)
        * Complex.exp ((m : ℝ) * Complex.I)))
      = ((n * ‖moment alpha w 1‖ : ℝ) : ℂ) * Complex.exp (((m - angle : ℝ) : ℂ) * Complex.I) by
        push_cast
        rw [show ((m : ℂ) - angle) * Complex.I = -angle * Complex.I + m * Complex.I by ring,
          Complex.exp_add]
        ring]
    rw [Complex.re_ofReal_mul, exp_re]
  refine ⟨⟨(n : ℝ) * ‖moment alpha w 1‖ * cos (angmodB (-π) π (m - angle)),
    (n : ℝ) * ‖moment alpha w 1‖ * cos (angmodB (-π) π (m - angle)) * sqrt (2 / n),
    sf ((n : ℝ) * ‖moment alpha w 1‖ * cos (angmodB (-π) π (m - angle)) * sqrt (2 / n))⟩, ?_, hV, ?_, ?_,
    rfl, rfl⟩
  · rw [hcall, vTestOf, if_neg (not_not.2 ⟨norm_nonneg _, hle1⟩)]
    simp
  · simp only [hV]
    rw [component_eq]
    refine (Complex.abs_re_le_norm _).trans ?_
    rw [norm_mul, Complex.norm_exp_ofReal_mul_I, one_mul]
  · have := norm_expSum_le alpha w hw hlen.symm 1
    rwa [hsum] at this

/-- A sample without a mean direction (resultant length at most 1e-12) has an undefined `V`. -/
theorem C32_V_undefined (angle : ℝ) (alpha w : List ℝ) (sf : ℝ → ℝ) (n : ℕ) (hn : 0 < n)
    (hlen : w.length = alpha.length) (hsum : w.sum = n)
    (hr : ‖moment alpha w 1‖ ≤ 1 / 10 ^ 12) :
    vTest angle (some alpha) (some w) none none none sf = .ok none := by
  have hn' : (0 : ℝ) < n := by exact_mod_cast hn
  have hsum0 : w.sum ≠ 0 := by rw [hsum]; exact hn'.ne'
  have hint : pyInt w.sum = n := by
    rw [pyInt, if_pos (by rw [hsum]; exact hn'.le), hsum, Int.floor_natCast]
  have hlen0 : alpha.length ≠ 0 := by
    intro h
    rw [h] at hlen
    rw [List.length_eq_zero_iff.1 hlen] at hsum0
    simp at hsum0
  have hmr : circMeanAndR alpha w = some (none, ‖moment alpha w 1‖) := by
    rw [circMeanAndR_eq, if_neg hsum0, if_pos hr]
  simp only [vTest, vTestSample, weightsOf, hlen, ne_eq, not_true_eq_false, if_false, Except.bind, hlen0, hint, hmr]
  rw [if_neg (by exact_mod_cast hn.not_ge), vTestOf,
    if_neg (not_not.2 ⟨norm_nonneg _, hr.trans (by norm_num)⟩)]
  rfl

/-- From summary values: `V` is `n r cos(mean - angle)`. -/
theorem C32_V_summary (angle m r : ℝ) (n : ℤ) (alpha w : Option (List ℝ)) (sf : ℝ → ℝ)
    (hn : 0 < n) (h0 : 0 ≤ r) (h1 : r ≤ 1) :
    ∃ res, vTest angle alpha w (some m) (some r) (some n) sf = .ok (some res) ∧
      res.V = n * r * cos (m - angle) ∧ res.u = res.V * sqrt (2 / n) ∧ res.pval = sf res.u := by
  refine ⟨⟨n * r * cos (angmodB (-π) π (m - angle)),
    n * r * cos (angmodB (-π) π (m - angle)) * sqrt (2 / n),
    sf (n * r * cos (angmodB (-π) π (m - angle)) * sqrt (2 / n))⟩, ?_, by simp only [cos_wrap], rfl, rfl⟩
  simp [vTest, vTestOf, h0, h1, not_le.2 hn]

/-- Rotating the data and the hypothesised angle together changes nothing. -/
theorem C32_V_rotate (angle t : ℝ) (alpha w : List ℝ) (sf : ℝ → ℝ) (n : ℕ) (hn : 0 < n)
    (hlen : w.length = alpha.length) (hw : ∀ x ∈ w, 0 ≤ x) (hsum : w.sum = n) :
    vTest (angle + t) (some (alpha.map (· + t))) (some w) none none none sf
      = vTest angle (some alpha) (some w) none none none sf := by
  have hnorm : ‖moment (alpha.map (· + t)) w 1‖ = ‖moment alpha w 1‖ := by
    rw [moment_rotate, norm_mul, Complex.norm_exp_ofReal_mul_I, one_mul]
  have hlen' : w.length = (alpha.map (· + t)).length := by simpa using hlen
  rcases le_or_gt ‖moment alpha w 1‖ (1 / 10 ^ 12) with hr | hr
  · rw [C32_V_undefined angle alpha w sf n hn hlen hsum hr,
      C32_V_undefined (angle + t) _ w sf n hn hlen' hsum (by rw [hnorm]; exact hr)]
  · obtain ⟨res, h, hV, -, -, hu, hp⟩ := C32_V_sample angle alpha w none none none sf n hn hlen hw
      hsum hr (Or.inl rfl)
    obtain ⟨res', h', hV', -, -, hu', hp'⟩ := C32_V_sample (angle + t) _ w none none none sf n hn
      hlen' hw hsum (by rw [hnorm]; exact hr) (Or.inl rfl)
    have hc : component (alpha.map (· + t)) w (angle + t) = component alpha w angle := by
      unfold component
      rw [List.zipWith_map_left]
      simp
    rw [h, h']
    congr 2
    obtain ⟨V, u, p⟩ := res
    obtain ⟨V', u', p'⟩ := res'
    simp only at *
    subst hp hp' hu hu' hV hV'
    rw [hc]

/-- With a decreasing normal tail, a larger component in the hypothesised direction gives a smaller
(never larger) p value at the same sample size. -/
theorem C32_V_monotone (angle m r angle' m' r' : ℝ) (n : ℤ) (sf : ℝ → ℝ) (hsf : Antitone sf)
    (res res' : VResult)
    (h : vTest angle none none (some m) (some r) (some n) sf = .ok (some res))
    (h' : vTest angle' none none (some m') (some r') (some n) sf = .ok (some res'))
    (hV : res.V ≤ res'.V) : res'.pval ≤ res.pval := by
  have key : ∀ {angle m r res}, vTest angle none none (some m) (some r) (some n) sf = .ok (some res) →
      res.pval = sf (res.V * sqrt (2 / n)) := by
    intro angle m r res h
    simp only [vTest] at h
    split_ifs at h with hn
    by_cases hr : 0 ≤ r ∧ r ≤ 1
    · obtain ⟨s, hs, -, hu, hp⟩ := C32_V_summary angle m r n none none sf (by omega) hr.1 hr.2
      simp only [vTest, if_neg hn] at hs
      rw [h] at hs
      cases hs
      rw [hp, hu]
    · rw [vTestOf, if_pos hr] at h; cases h
  rw [key h, key h']
  exact hsf (mul_le_mul_of_nonneg_right hV (sqrt_nonneg _))

/-- A sample on which `V` is defined: `0` and `π/2` against direction `0` give `V = 1`. -/
example : component [0, π / 2] [1, 1] 0 = 1 ∧ (([1, 1] : List ℝ).sum = (2 : ℕ)) ∧
    1 / 10 ^ 12 < ‖moment [0, π / 2] [1, 1] 1‖ := by
  refine ⟨by simp [component], by norm_num, ?_⟩
  refine lt_of_lt_of_le ?_ (Complex.abs_re_le_norm _)
  have : moment [0, π / 2] [1, 1] 1 = ((1 / 2 : ℝ) : ℂ) * (1 + Complex.I) := by
    have h2 : Complex.exp ((π : ℂ) / 2 * Complex.I) = Complex.I := by
      rw [Complex.exp_mul_I, ← Complex.ofReal_ofNat, ← Complex.ofReal_div, ← Complex.ofReal_cos,
        ← Complex.ofReal_sin, cos_pi_div_two, sin_pi_div_two]
      simp
    simp [moment, expSum, h2]
    ring
  rw [this, Complex.re_ofReal_mul]
  norm_num

/-- The decision: reject exactly when the angle is not on the arc from `lb` to `ub`. -/
theorem C33_decision (angle lb ub chi z : ℝ) (alpha w : Option (List ℝ)) (draws : List (List ℝ)) :
    ∃ reject, oneSampleTest angle alpha w (some lb) (some ub) chi z draws
        = .ok (reject, some (lb, ub)) ∧ (reject = true ↔ ¬ OnArc angle lb ub) := by
  refine ⟨_, rfl, ?_⟩
  simp only [oneSampleReject, Bool.not_eq_true', ← Bool.not_eq_true, C06_isWithin_iff_onArc]

/-- Computed from data, the interval reported is the default confidence interval of the mean and the
same decision rule applies; an undefined interval always rejects. -/
theorem C33_decision_sample (angle chi z : ℝ) (alpha w : List ℝ) (lb ub : Option ℝ)
    (draws : List (List ℝ)) (hm : lb = none ∨ ub = none) (reject : Bool) (ci : Option (ℝ × ℝ))
    (h : oneSampleTest angle (some alpha) (some w) lb ub chi z draws = .ok (reject, ci)) :
    circMeanCi (some alpha) (some w) none none none 0.95 chi z draws "approximate" = .ok ci ∧
      (reject = true ↔ ∀ l u, ci = some (l, u) → ¬ OnArc angle l u) := by
  have h2 : oneSampleTest angle (some alpha) (some w) none none chi z draws = .ok (reject, ci) := by
    rcases hm with rfl | rfl
    · exact h
    · cases lb <;> exact h
  simp only [oneSampleTest, weightsOf] at h2
  split_ifs at h2 with h0 h1
  · cases h2
  · simp only [Except.bind] at h2
    cases hc : circMeanCi (some alpha) (some w) none none none 0.95 chi z draws "approximate" with
    | error e => rw [hc] at h2; cases h2
    | ok c =>
      rw [hc] at h2
      simp only [Except.map, Except.ok.injEq, Prod.mk.injEq] at h2
      obtain ⟨hr, rfl⟩ := h2
      refine ⟨rfl, ?_⟩
      rw [← hr]
      cases c with
      | none => simp [oneSampleReject]
      | some p =>
        obtain ⟨l, u⟩ := p
        simp only [oneSampleReject, Bool.not_eq_true', ← Bool.not_eq_true, C06_isWithin_iff_onArc,
          Option.some.injEq, Prod.mk.injEq]
        constructor
        · rintro h l' u' ⟨rfl, rfl⟩; exact h
        · intro h; exact h l u ⟨rfl, rfl⟩

/-- The sample mean direction is never rejected when the test computes a defined interval itself. -/
theorem C33_mean_not_rejected (chi z : ℝ) (hchi : 0 < chi) (alpha w : List ℝ)
    (hlen : alpha.length = w.length) (hw : ∀ x ∈ w, 0 ≤ x) (draws : List (List ℝ))
    (m r : ℝ) (hmr : circMeanAndR alpha w = some (some m, r)) (reject : Bool) (ci : ℝ × ℝ)
    (h : oneSampleTest m (some alpha) (some w) none none chi z draws = .ok (reject, some ci)) :
    reject = false := by
  obtain ⟨hc, hr⟩ := C33_decision_sample m chi z alpha w none none draws (Or.inl rfl) _ _ h
  obtain ⟨l, u⟩ := ci
  rw [C21_approximate_from_sample alpha w 0.95 chi z draws m r hmr] at hc
  have hr1 : r ≤ 1 := by
    rw [circMeanAndR_eq] at hmr
    split_ifs at hmr with h1 h2
    · simp at hmr
    simp only [Option.some.injEq, Prod.mk.injEq] at hmr
    rw [← hmr.2]
    exact norm_moment_le alpha w hw hlen 1
  have hon : OnArc m l u := by
    by_cases hn : w.sum < 8
    · rw [C21_approximate_refused m r w.sum 0.95 chi z none none draws (Or.inl hn)] at hc
      cases hc
    by_cases hrr : r < sqrt (chi / (2 * w.sum))
    · rw [C21_approximate_refused m r w.sum 0.95 chi z none none draws (Or.inr hrr)] at hc
      cases hc
    rw [not_lt] at hn hrr
    rcases le_or_gt r 0.9 with h9 | h9
    · obtain ⟨lb, ub, d, hok, -, -, -, hI⟩ :=
        C21_approximate_moderate m r w.sum 0.95 chi z none none draws hn hchi hrr h9
      rw [hok] at hc; cases hc
      exact hI.contains
    · rcases C21_approximate_concentrated m r w.sum 0.95 chi z none none draws hn hchi.le hrr h9 hr1
        with ⟨-, hok⟩ | ⟨lb, ub, d, -, hok, -, -, -, hI⟩
      · rw [hok] at hc; cases hc
      · rw [hok] at hc; cases hc
        exact hI.contains
  rcases Bool.eq_false_or_eq_true reject with h1 | h1
  · exact absurd hon (hr.1 h1 l u rfl)
  · exact h1

end Verif.Props
