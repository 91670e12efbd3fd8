import Verif.Lemmas.MeanDir
import Mathlib.Algebra.Order.BigOperators.Ring.Finset

/-! # C52: Jammalamadaka-SenGupta circular correlation (`circ_corrcc(method="js")`) -/

set_option autoImplicit false

namespace Verif.Props

open Real Verif Verif.Spec

/-- Specification: sum of products of the sines of the deviations from `p` and `q`. -/
noncomputable def sinCov {n : ℕ} (a b : Fin n → ℝ) (p q : ℝ) : ℝ := ∑ i, sin (a i - p) * sin (b i - q)

/-- Specification: the scale of the coefficient; data are refused when it is at most `1e-8`. -/
noncomputable def jsScale {n : ℕ} (a b : Fin n → ℝ) (p q : ℝ) : ℝ := sqrt (sinCov a a p p * sinCov b b q q)

/-- Specification: the coefficient, given the mean directions `p`, `q`. -/
noncomputable def jsCoef {n : ℕ} (a b : Fin n → ℝ) (p q : ℝ) : ℝ := sinCov a b p q / jsScale a b p q

private lemma sinCov_congr {n : ℕ} {a b : Fin n → ℝ} {p q p' q' : ℝ} (hp : SameDir p' p) (hq : SameDir q' q) :
    sinCov a b p' q' = sinCov a b p q := by
  unfold sinCov
  refine Finset.sum_congr rfl fun i _ => ?_
  rw [sin_eq_of_sameDir ((CongMod.refl (2 * π) (a i)).sub hp), sin_eq_of_sameDir ((CongMod.refl (2 * π) (b i)).sub hq)]

private lemma sum_sq_eq {n : ℕ} (a : Fin n → ℝ) (p : ℝ) :
    (((List.ofFn a).map fun x => sin (x - p)).map fun x => x ^ 2).sum = sinCov a a p p := by
  rw [List.map_map, List.map_ofFn, List.sum_ofFn, sinCov]
  simp only [Function.comp_def, pow_two]

private lemma sum_prod_eq {n : ℕ} (a b : Fin n → ℝ) (p q : ℝ) :
    (List.zipWith (fun x y => x * y) ((List.ofFn a).map fun x => sin (x - p))
      ((List.ofFn b).map fun x => sin (x - q))).sum = sinCov a b p q := by
  rw [List.map_ofFn, List.map_ofFn, zipWith_ofFn, List.sum_ofFn]
  rfl

private lemma jsOf_false {n : ℕ} (a b : Fin n → ℝ) (p q : ℝ) (cdf : ℝ → ℝ) :
    jsOf (List.ofFn a) (List.ofFn b) p q false cdf = if jsScale a b p q ≤ 1 / 10 ^ 8 then .error .valueError
      else .ok { r := some (jsCoef a b p q) } := by
  unfold jsOf
  simp only [sum_sq_eq, sum_prod_eq, Bool.false_eq_true, if_false]
  simp only [isclose_zero _ _ _ (sqrt_nonneg _), atolDefault]
  rfl

/-- Not refused up front: enough pairs, and in strict mode no sample whose mean is not significant. -/
def JsAdmitted (n : ℕ) (pa pb : Option ℝ) (strict : Bool) : Prop :=
  2 ≤ n ∧ (strict = true → (∀ p, pa = some p → p < 0.05) ∧ ∀ p, pb = some p → p < 0.05)

private lemma looksUniform_false {strict : Bool} {p : Option ℝ} (h : strict = true → ∀ q, p = some q → q < 0.05) :
    looksUniform strict p = false := by
  unfold looksUniform
  cases p with
  | none => rfl
  | some q =>
    cases strict with
    | false => rfl
    | true =>
      have := h rfl q rfl
      simp only [Bool.true_and, decide_eq_false_iff_not, not_le]
      exact this

private lemma looksUniform_true {p : Option ℝ} {q : ℝ} (h : p = some q) (hq : 0.05 ≤ q) :
    looksUniform true p = true := by
  subst h
  simp only [looksUniform, Bool.true_and, decide_eq_true_eq]
  exact hq

private lemma js_admitted {n : ℕ} {a b : Fin n → ℝ} {pa pb : Option ℝ} {test strict : Bool} {z : ℝ}
    {cdf : ℝ → ℝ} (h : JsAdmitted n pa pb strict) :
    circCorrcc (List.ofFn a) (List.ofFn b) pa pb "js" test strict z cdf =
      match circMean (List.ofFn a) (ones (List.ofFn a)), circMean (List.ofFn b) (ones (List.ofFn b)) with
      | some ma, some mb => jsOf (List.ofFn a) (List.ofFn b) ma mb test cdf
      | _, _ => .ok { r := none } := by
  unfold circCorrcc corrJs
  rw [if_neg (by decide), if_pos rfl, if_neg (by simp), if_neg (by simp; exact h.1),
    looksUniform_false fun hs => (h.2 hs).1, looksUniform_false fun hs => (h.2 hs).2]
  simp only [Bool.false_eq_true, if_false]
  cases circMean (List.ofFn a) (ones (List.ofFn a)) <;> cases circMean (List.ofFn b) (ones (List.ofFn b)) <;> rfl

/-- For admitted data with mean directions `p` and `q` the coefficient is the normalised sum of products
of the sines of the deviations. -/
theorem C52_value {n : ℕ} (a b : Fin n → ℝ) (p q : ℝ) (pa pb : Option ℝ) (strict : Bool) (z : ℝ) (cdf : ℝ → ℝ)
    (h : JsAdmitted n pa pb strict) (hp : IsMeanDir a p) (hq : IsMeanDir b q)
    (hs : 1 / 10 ^ 8 < jsScale a b p q) :
    circCorrcc (List.ofFn a) (List.ofFn b) pa pb "js" false strict z cdf
      = .ok { r := some (jsCoef a b p q) } := by
  obtain ⟨p', hp', sp⟩ := circMean_of_isMeanDir hp
  obtain ⟨q', hq', sq⟩ := circMean_of_isMeanDir hq
  have e : jsScale a b p' q' = jsScale a b p q := by
    unfold jsScale; rw [sinCov_congr sp sp, sinCov_congr sq sq]
  rw [js_admitted h, hp', hq']
  simp only
  rw [jsOf_false, e, if_neg (not_le.2 hs), jsCoef, jsCoef, e, sinCov_congr sp sq]

/-- The coefficient is `nan` exactly when one of the variables has no mean direction. -/
theorem C52_nan {n : ℕ} (a b : Fin n → ℝ) (pa pb : Option ℝ) (strict : Bool) (z : ℝ) (cdf : ℝ → ℝ)
    (h : JsAdmitted n pa pb strict) :
    (∃ res, circCorrcc (List.ofFn a) (List.ofFn b) pa pb "js" false strict z cdf = .ok res ∧ res.r = none) ↔
      (¬ ∃ p, IsMeanDir a p) ∨ ¬ ∃ q, IsMeanDir b q := by
  rw [js_admitted h, ← circMean_none_iff, ← circMean_none_iff]
  cases circMean (List.ofFn a) (ones (List.ofFn a)) with
  | none => simp
  | some p =>
    cases circMean (List.ofFn b) (ones (List.ofFn b)) with
    | none => simp
    | some q =>
      simp only [jsOf_false, reduceCtorEq, or_self, iff_false]
      split_ifs <;> simp

/-- A `ValueError` is raised exactly for samples of different or too small sizes, in strict mode for a
sample (given as a `Circular` object) whose mean has a p value of 0.05 or more, and for a degenerate scale
around the mean directions. -/
theorem C52_refused {m n : ℕ} (a : Fin m → ℝ) (b : Fin n → ℝ) (pa pb : Option ℝ) (strict : Bool) (z : ℝ)
    (cdf : ℝ → ℝ) :
    circCorrcc (List.ofFn a) (List.ofFn b) pa pb "js" false strict z cdf = .error .valueError ↔
      m ≠ n ∨ n < 2 ∨ (strict = true ∧ ((∃ p, pa = some p ∧ 0.05 ≤ p) ∨ ∃ p, pb = some p ∧ 0.05 ≤ p)) ∨
      ∃ (h : m = n) (p q : ℝ), IsMeanDir a p ∧ IsMeanDir b q ∧ jsScale (h ▸ a) b p q ≤ 1 / 10 ^ 8 := by
  by_cases hmn : m = n
  swap
  · unfold circCorrcc corrJs
    simp [hmn]
  subst hmn
  by_cases hn : m < 2
  · unfold circCorrcc corrJs
    simp [hn]
  by_cases hu : strict = true ∧ ((∃ p, pa = some p ∧ 0.05 ≤ p) ∨ ∃ p, pb = some p ∧ 0.05 ≤ p)
  · obtain ⟨rfl, hu⟩ := hu
    simp only [true_and, hu, true_or, or_true, iff_true]
    unfold circCorrcc corrJs
    rw [if_neg (by decide), if_pos rfl, if_neg (by simp), if_neg (by simpa using hn)]
    rcases hu with ⟨p, hp, h5⟩ | ⟨p, hp, h5⟩
    · rw [looksUniform_true hp h5]; rfl
    · rw [looksUniform_true hp h5]; split_ifs <;> simp_all
  have hadm : JsAdmitted m pa pb strict := by
    refine ⟨by omega, fun hs => ?_⟩
    subst hs
    simp only [true_and] at hu
    push Not at hu
    exact ⟨fun p h => hu.1 p h, fun p h => hu.2 p h⟩
  simp only [ne_eq, not_true_eq_false, hn, hu, false_or, exists_true_left]
  rw [js_admitted hadm]
  constructor
  · intro h
    cases hp : circMean (List.ofFn a) (ones (List.ofFn a)) with
    | none => rw [hp] at h; simp at h
    | some p =>
      cases hq : circMean (List.ofFn b) (ones (List.ofFn b)) with
      | none => rw [hp, hq] at h; simp at h
      | some q =>
        rw [hp, hq] at h
        simp only [jsOf_false] at h
        refine ⟨p, q, circMean_some_iff a p hp, circMean_some_iff b q hq, ?_⟩
        by_contra hc
        rw [if_neg hc] at h
        cases h
  · rintro ⟨p, q, hp, hq, hs⟩
    obtain ⟨p', hp', sp⟩ := circMean_of_isMeanDir hp
    obtain ⟨q', hq', sq⟩ := circMean_of_isMeanDir hq
    have e : jsScale a b p' q' = jsScale a b p q := by
      unfold jsScale; rw [sinCov_congr sp sp, sinCov_congr sq sq]
    rw [hp', hq']
    simp only
    rw [jsOf_false, e, if_pos hs]

/-- The coefficient is in `[-1, 1]`. -/
theorem C52_range {n : ℕ} (a b : Fin n → ℝ) (p q : ℝ) : |jsCoef a b p q| ≤ 1 := by
  unfold jsCoef jsScale
  rw [abs_div, abs_of_nonneg (sqrt_nonneg _)]
  refine div_le_one_of_le₀ (abs_le_sqrt ?_) (sqrt_nonneg _)
  have := Finset.sum_mul_sq_le_sq_mul_sq (Finset.univ : Finset (Fin n)) (fun i => sin (a i - p)) (fun i => sin (b i - q))
  simpa only [sinCov, pow_two] using this

/-- It is the ordinary correlation coefficient of the sines of the deviations: these have mean 0. -/
theorem C52_centered {n : ℕ} (a : Fin n → ℝ) (p : ℝ) (hp : IsMeanDir a p) : ∑ i, sin (a i - p) = 0 :=
  sum_sin_isMeanDir hp

/-- Exchanging the variables keeps the coefficient. -/
theorem C52_symm {n : ℕ} (a b : Fin n → ℝ) (pa pb : Option ℝ) (test strict : Bool) (z : ℝ) (cdf : ℝ → ℝ) :
    circCorrcc (List.ofFn b) (List.ofFn a) pb pa "js" test strict z cdf
      = circCorrcc (List.ofFn a) (List.ofFn b) pa pb "js" test strict z cdf := by
  have h1 : ∀ p q, jsOf (List.ofFn b) (List.ofFn a) q p test cdf = jsOf (List.ofFn a) (List.ofFn b) p q test cdf := by
    intro p q
    unfold jsOf
    have e1 : sinCov b a q p = sinCov a b p q := by simp only [sinCov, mul_comm]
    have e2 : (List.zipWith (fun x y => x ^ 2 * y ^ 2) ((List.ofFn b).map fun x => sin (x - q))
        ((List.ofFn a).map fun x => sin (x - p)))
        = List.zipWith (fun x y => x ^ 2 * y ^ 2) ((List.ofFn a).map fun x => sin (x - p))
          ((List.ofFn b).map fun x => sin (x - q)) := by
      rw [List.zipWith_comm]
      simp only [mul_comm]
    simp only [sum_sq_eq, sum_prod_eq, e1, e2, mul_comm (sinCov b b q q), List.length_ofFn,
      mul_comm (sinCov b b q q / (n : ℝ))]
  unfold circCorrcc
  rw [if_neg (by decide), if_pos rfl, if_neg (by decide), if_pos rfl]
  unfold corrJs
  simp only [List.length_ofFn, h1]
  cases circMean (List.ofFn a) (ones (List.ofFn a)) <;> cases circMean (List.ofFn b) (ones (List.ofFn b)) <;>
    cases looksUniform strict pa <;> cases looksUniform strict pb <;> simp

/-- Turning either variable keeps the coefficient: it is the same function of the rotated data and
their mean directions. -/
theorem C52_rotate {n : ℕ} (a b a' b' : Fin n → ℝ) (s t : ℝ) (ha : ∀ i, SameDir (a' i) (a i + s))
    (hb : ∀ i, SameDir (b' i) (b i + t)) (pa pb : Option ℝ) (strict : Bool) (z : ℝ) (cdf : ℝ → ℝ) :
    circCorrcc (List.ofFn a') (List.ofFn b') pa pb "js" false strict z cdf
      = circCorrcc (List.ofFn a) (List.ofFn b) pa pb "js" false strict z cdf := by
  have key : ∀ {u u' : Fin n → ℝ} {s : ℝ}, (∀ i, SameDir (u' i) (u i + s)) →
      (circMean (List.ofFn u) (ones (List.ofFn u)) = none ∧ circMean (List.ofFn u') (ones (List.ofFn u')) = none) ∨
      ∃ p p', circMean (List.ofFn u) (ones (List.ofFn u)) = some p ∧
        circMean (List.ofFn u') (ones (List.ofFn u')) = some p' ∧ ∀ i, sin (u' i - p') = sin (u i - p) := by
    intro u u' s h
    cases hp : circMean (List.ofFn u) (ones (List.ofFn u)) with
    | some p =>
      obtain ⟨p', hp', sp⟩ := circMean_of_isMeanDir (isMeanDir_rotate (circMean_some_iff u p hp) h)
      refine Or.inr ⟨p, p', rfl, hp', fun i => ?_⟩
      have := (h i).sub sp
      rw [add_sub_add_right_eq_sub] at this
      exact sin_eq_of_sameDir this
    | none =>
      refine Or.inl ⟨rfl, ?_⟩
      rw [circMean_none_iff] at hp ⊢
      rintro ⟨m, hm⟩
      refine hp ⟨m + -s, isMeanDir_rotate hm fun i => ?_⟩
      have := ((h i).add (CongMod.refl (2 * π) (-s))).symm
      rwa [add_neg_cancel_right] at this
  unfold circCorrcc
  rw [if_neg (by decide), if_pos rfl, if_neg (by decide), if_pos rfl]
  unfold corrJs
  simp only [List.length_ofFn]
  rcases key ha with ⟨h1, h1'⟩ | ⟨p, p', h1, h1', e1⟩
  · rw [h1, h1']
  rcases key hb with ⟨h2, h2'⟩ | ⟨q, q', h2, h2', e2⟩
  · rw [h1, h1', h2, h2']
  have e : jsOf (List.ofFn a') (List.ofFn b') p' q' false cdf = jsOf (List.ofFn a) (List.ofFn b) p q false cdf := by
    have f1 : sinCov a' b' p' q' = sinCov a b p q := by simp only [sinCov, e1, e2]
    have f2 : sinCov a' a' p' p' = sinCov a a p p := by simp only [sinCov, e1]
    have f3 : sinCov b' b' q' q' = sinCov b b q q := by simp only [sinCov, e2]
    rw [jsOf_false, jsOf_false, jsCoef, jsCoef, jsScale, jsScale, f1, f2, f3]
  rw [h1, h1', h2, h2']
  simp only [e]

/-- Reflecting one variable reflects its mean direction and changes the sign of the coefficient. -/
theorem C52_reflect {n : ℕ} (a b : Fin n → ℝ) (p q : ℝ) (hp : IsMeanDir a p) :
    IsMeanDir (fun i => -a i) (-p) ∧ jsScale (fun i => -a i) b (-p) q = jsScale a b p q ∧
      jsCoef (fun i => -a i) b (-p) q = -jsCoef a b p q := by
  have h : ∀ i, sin (-a i - -p) = -sin (a i - p) := by intro i; rw [← sin_neg]; congr 1; ring
  have e1 : sinCov (fun i => -a i) b (-p) q = -sinCov a b p q := by
    simp only [sinCov, h, neg_mul, Finset.sum_neg_distrib]
  have e2 : sinCov (fun i => -a i) (fun i => -a i) (-p) (-p) = sinCov a a p p := by
    simp only [sinCov, h, neg_mul_neg]
  refine ⟨isMeanDir_reflect hp, by simp only [jsScale, e2], ?_⟩
  unfold jsCoef jsScale
  rw [e1, e2, neg_div]

/-- A variable is perfectly correlated with itself. -/
theorem C52_self {n : ℕ} (a : Fin n → ℝ) (p : ℝ) (hs : 0 < jsScale a a p p) : jsCoef a a p p = 1 := by
  have h0 : 0 ≤ sinCov a a p p := by
    unfold sinCov; exact Finset.sum_nonneg fun i _ => mul_self_nonneg _
  unfold jsCoef
  have : jsScale a a p p = sinCov a a p p := by unfold jsScale; exact sqrt_mul_self h0
  rw [this] at hs ⊢
  exact div_self hs.ne'

/-- The test: the statistic is `√n · √(λ₂₀ λ₀₂ / λ₂₂) · r` and the p value that of a standard normal
variable. -/
theorem C52_test {n : ℕ} (a b : Fin n → ℝ) (p q : ℝ) (pa pb : Option ℝ) (strict : Bool) (z : ℝ) (cdf : ℝ → ℝ)
    (h : JsAdmitted n pa pb strict) (hp : IsMeanDir a p) (hq : IsMeanDir b q)
    (hs : 1 / 10 ^ 8 < jsScale a b p q)
    (h22 : 1 / 10 ^ 8 < (∑ i, sin (a i - p) ^ 2 * sin (b i - q) ^ 2) / n) :
    ∃ res stat, circCorrcc (List.ofFn a) (List.ofFn b) pa pb "js" true strict z cdf = .ok res ∧
      res.r = some (jsCoef a b p q) ∧ res.stat = some stat ∧
      stat = sqrt n * sqrt (((∑ i, sin (a i - p) ^ 2) / n) * ((∑ i, sin (b i - q) ^ 2) / n)
        / ((∑ i, sin (a i - p) ^ 2 * sin (b i - q) ^ 2) / n)) * jsCoef a b p q ∧
      res.pval = some (2 * (1 - cdf |stat|)) := by
  obtain ⟨p', hp', sp⟩ := circMean_of_isMeanDir hp
  obtain ⟨q', hq', sq⟩ := circMean_of_isMeanDir hq
  have ep : ∀ i, sin (a i - p') = sin (a i - p) := fun i =>
    sin_eq_of_sameDir ((CongMod.refl (2 * π) (a i)).sub sp)
  have eq : ∀ i, sin (b i - q') = sin (b i - q) := fun i =>
    sin_eq_of_sameDir ((CongMod.refl (2 * π) (b i)).sub sq)
  have e22 : (List.zipWith (fun x y => x ^ 2 * y ^ 2) ((List.ofFn a).map fun x => sin (x - p'))
      ((List.ofFn b).map fun x => sin (x - q'))).sum = ∑ i, sin (a i - p) ^ 2 * sin (b i - q) ^ 2 := by
    rw [List.map_ofFn, List.map_ofFn, zipWith_ofFn, List.sum_ofFn]
    simp only [Function.comp_def, ep, eq]
  have f1 : sinCov a b p' q' = sinCov a b p q := sinCov_congr sp sq
  have f2 : sinCov a a p' p' = sinCov a a p p := sinCov_congr sp sp
  have f3 : sinCov b b q' q' = sinCov b b q q := sinCov_congr sq sq
  have g2 : ∑ i, sin (a i - p) ^ 2 = sinCov a a p p := by simp only [sinCov, pow_two]
  have g3 : ∑ i, sin (b i - q) ^ 2 = sinCov b b q q := by simp only [sinCov, pow_two]
  rw [js_admitted h, hp', hq']
  simp only
  unfold jsOf
  simp only [sum_sq_eq, sum_prod_eq, e22, f1, f2, f3, List.length_ofFn, g2, g3]
  rw [if_neg (by rw [isclose_zero _ _ _ (sqrt_nonneg _)]; exact not_le.2 hs), if_pos trivial,
    if_neg (by rw [isclose_zero _ _ _ (by linarith [h22, (by norm_num : (0 : ℝ) < 1 / 10 ^ 8)])]; exact not_le.2 h22)]
  exact ⟨_, _, rfl, rfl, rfl, rfl, rfl⟩

/-- Two directions a quarter turn apart have a mean direction halfway and a scale of 1. -/
example : IsMeanDir ![0, π / 2] (π / 4) ∧ jsScale ![0, π / 2] ![0, π / 2] (π / 4) (π / 4) = 1 ∧
    JsAdmitted 2 none (some 0.01) true ∧
    1 / 10 ^ 8 < (∑ i, sin (![0, π / 2] i - π / 4) ^ 2 * sin (![0, π / 2] i - π / 4) ^ 2) / (2 : ℕ) := by
  have h4 : (√2 / 2) ^ 2 = (1 / 2 : ℝ) := by rw [div_pow, sq_sqrt (by norm_num)]; norm_num
  have e24 : π / 2 - π / 4 = π / 4 := by ring
  refine ⟨⟨√2 / 2, ?_, ?_⟩, ?_, ⟨le_refl 2, fun _ => ⟨by simp, ?_⟩⟩, ?_⟩
  · have : (1 : ℝ) < √2 := by rw [lt_sqrt (by norm_num)]; norm_num
    linarith [(by norm_num : (1 : ℝ) / 10 ^ 8 < 1 / 2)]
  · rw [Fin.sum_univ_two]
    apply Complex.ext
    · simp [Complex.exp_re, Complex.exp_im]
      rw [← pow_two, h4]; norm_num
    · simp [Complex.exp_re, Complex.exp_im]
      rw [← pow_two, h4]; norm_num
  · simp only [jsScale, sinCov, Fin.sum_univ_two]
    simp [e24, ← pow_two]
    rw [h4]; norm_num
  · rintro p hp
    cases hp
    norm_num
  · simp only [Fin.sum_univ_two]
    simp [e24]
    rw [h4]; norm_num

end Verif.Props
