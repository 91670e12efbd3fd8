import Verif.Model.Descriptive
import Verif.Spec.Sample
import Verif.Lemmas.Circle

/-! Helper lemmas: the model's `C`, `S` as real and imaginary part of the exponential moment. -/

set_option autoImplicit false

namespace Verif

open Real Spec

lemma exp_re (x : ℝ) : (Complex.exp ((x : ℝ) * Complex.I)).re = cos x := by
  simp [Complex.exp_ofReal_mul_I_re]
lemma exp_im (x : ℝ) : (Complex.exp ((x : ℝ) * Complex.I)).im = sin x := by
  simp [Complex.exp_ofReal_mul_I_im]

/-- shifted exponential sum -/
lemma expSum_shift (alpha w : List ℝ) (p : ℤ) (m : ℝ) :
    (List.zipWith (fun (a w : ℝ) => (w : ℂ) * Complex.exp ((p * (a - m) : ℝ) * Complex.I)) alpha w).sum
      = Complex.exp ((-(p * m) : ℝ) * Complex.I) * expSum alpha w p := by
  unfold expSum
  induction alpha generalizing w with
  | nil => simp
  | cons a as ih =>
    cases w with
    | nil => simp
    | cons v vs =>
      simp only [List.zipWith_cons_cons, List.sum_cons, ih, mul_add]
      congr 1
      rw [mul_left_comm, ← Complex.exp_add]
      congr 2
      push_cast; ring

lemma zip_cos_sum (alpha w : List ℝ) (p : ℤ) (m : ℝ) :
    (List.zipWith (fun a w => w * cos (p * (a - m))) alpha w).sum
      = (Complex.exp ((-(p * m) : ℝ) * Complex.I) * expSum alpha w p).re := by
  rw [← expSum_shift]
  induction alpha generalizing w with
  | nil => simp
  | cons a as ih =>
    cases w with
    | nil => simp
    | cons v vs =>
      simp only [List.zipWith_cons_cons, List.sum_cons, ih, Complex.add_re, Complex.re_ofReal_mul,
        exp_re]

lemma zip_sin_sum (alpha w : List ℝ) (p : ℤ) (m : ℝ) :
    (List.zipWith (fun a w => w * sin (p * (a - m))) alpha w).sum
      = (Complex.exp ((-(p * m) : ℝ) * Complex.I) * expSum alpha w p).im := by
  rw [← expSum_shift]
  induction alpha generalizing w with
  | nil => simp
  | cons a as ih =>
    cases w with
    | nil => simp
    | cons v vs =>
      simp only [List.zipWith_cons_cons, List.sum_cons, ih, Complex.add_im, Complex.im_ofReal_mul,
        exp_im]

lemma computeCS_eq (alpha w : List ℝ) (p : ℤ) (m : ℝ) :
    computeCS alpha w p m = if w.sum = 0 then none else
      some ((Complex.exp ((-(p * m) : ℝ) * Complex.I) * moment alpha w p).re,
        (Complex.exp ((-(p * m) : ℝ) * Complex.I) * moment alpha w p).im) := by
  unfold computeCS pydiv
  by_cases h : w.sum = 0
  · simp [h]
  · simp only [zip_cos_sum, zip_sin_sum, if_neg h, moment, ← mul_div_assoc, Complex.div_ofReal_re,
      Complex.div_ofReal_im]
    rfl

lemma computeCS_one (alpha w : List ℝ) :
    computeCS alpha w 1 0 = if w.sum = 0 then none else
      some ((moment alpha w 1).re, (moment alpha w 1).im) := by
  rw [computeCS_eq]; simp

lemma circRofCS_eq (z : ℂ) : circRofCS z.re z.im = ‖z‖ := by
  unfold circRofCS
  rw [Complex.norm_def, Complex.normSq_apply]
  congr 1; ring

lemma arctan2_eq (z : ℂ) : arctan2 z.im z.re = Complex.arg z := rfl

lemma circR_eq (alpha w : List ℝ) :
    circR alpha w = if w.sum = 0 then none else some ‖moment alpha w 1‖ := by
  unfold circR
  rw [computeCS_one]
  split_ifs <;> simp [circRofCS_eq]

lemma isclose_zero (r rtol atol : ℝ) (h : 0 ≤ r) : isclose r 0 rtol atol ↔ r ≤ atol := by
  simp [isclose, abs_of_nonneg h]

lemma circMean_eq (alpha w : List ℝ) :
    circMean alpha w = if w.sum = 0 ∨ ‖moment alpha w 1‖ ≤ 1 / 10 ^ 8 then none else
      some (angmod2pi (Complex.arg (moment alpha w 1))) := by
  unfold circMean
  rw [computeCS_one]
  by_cases h : w.sum = 0
  · simp [h]
  · simp only [h, false_or]
    show (if isclose (circRofCS (moment alpha w 1).re (moment alpha w 1).im) 0 rtolDefault
      atolDefault then none else some _) = _
    rw [circRofCS_eq]
    simp only [isclose_zero _ _ _ (norm_nonneg _), atolDefault, arctan2_eq]

lemma circMeanAndR_eq (alpha w : List ℝ) :
    circMeanAndR alpha w = if w.sum = 0 then none else
      some (if ‖moment alpha w 1‖ ≤ 1 / 10 ^ 12 then none
        else some (angmod2pi (Complex.arg (moment alpha w 1))), ‖moment alpha w 1‖) := by
  unfold circMeanAndR
  rw [computeCS_one]
  by_cases h : w.sum = 0
  · simp [h]
  · simp only [if_neg h]
    show (if isclose (circRofCS (moment alpha w 1).re (moment alpha w 1).im) 0 rtolDefault
      _ then _ else _) = _
    rw [circRofCS_eq]
    simp only [isclose_zero _ _ _ (norm_nonneg _), arctan2_eq]
    split_ifs <;> rfl

lemma circMoment_some (alpha w : List ℝ) (p : ℤ) (m : ℝ) (c : Bool) :
    circMoment alpha w p (some m) c = if w.sum = 0 then none else
      some (Complex.exp ((-(p * m) : ℝ) * Complex.I) * moment alpha w p) := by
  unfold circMoment
  simp only [computeCS_eq]
  split_ifs <;> rfl

lemma circMoment_raw (alpha w : List ℝ) (p : ℤ) :
    circMoment alpha w p none false = if w.sum = 0 then none else some (moment alpha w p) := by
  have : circMoment alpha w p none false = circMoment alpha w p (some 0) false := rfl
  rw [this, circMoment_some]; simp

lemma circMoment_centered (alpha w : List ℝ) (p : ℤ) :
    circMoment alpha w p none true = (circMean alpha w).bind
      fun m => circMoment alpha w p (some m) true := by
  unfold circMoment
  rfl

/-! ### Transformations of the sample -/

lemma expSum_rotate (alpha w : List ℝ) (p : ℤ) (t : ℝ) :
    expSum (alpha.map (· + t)) w p = Complex.exp ((p * t : ℝ) * Complex.I) * expSum alpha w p := by
  have := expSum_shift alpha w p (-t)
  simp only [mul_neg, neg_neg, sub_neg_eq_add] at this
  rw [← this]
  unfold expSum
  rw [List.zipWith_map_left]

lemma moment_rotate (alpha w : List ℝ) (p : ℤ) (t : ℝ) :
    moment (alpha.map (· + t)) w p = Complex.exp ((p * t : ℝ) * Complex.I) * moment alpha w p := by
  unfold moment; rw [expSum_rotate, mul_div_assoc]

lemma expSum_reflect (alpha w : List ℝ) (p : ℤ) :
    expSum (alpha.map (fun a => -a)) w p = starRingEnd ℂ (expSum alpha w p) := by
  unfold expSum
  induction alpha generalizing w with
  | nil => simp
  | cons a as ih =>
    cases w with
    | nil => simp
    | cons v vs =>
      simp only [List.map_cons, List.zipWith_cons_cons, List.sum_cons, ih, map_add, map_mul,
        Complex.conj_ofReal, ← Complex.exp_conj, Complex.conj_I]
      congr 3
      push_cast; ring

lemma moment_reflect (alpha w : List ℝ) (p : ℤ) :
    moment (alpha.map (fun a => -a)) w p = starRingEnd ℂ (moment alpha w p) := by
  unfold moment; rw [expSum_reflect, map_div₀, Complex.conj_ofReal]

lemma exp_eq_of_sameDir {a b : ℝ} (h : SameDir a b) (p : ℤ) :
    Complex.exp ((p * a : ℝ) * Complex.I) = Complex.exp ((p * b : ℝ) * Complex.I) := by
  obtain ⟨k, rfl⟩ := h
  rw [Complex.exp_eq_exp_iff_exists_int]
  exact ⟨p * k, by push_cast; ring⟩

lemma expSum_congr {alpha beta : List ℝ} (h : List.Forall₂ SameDir alpha beta) (w : List ℝ) (p : ℤ) :
    expSum alpha w p = expSum beta w p := by
  unfold expSum
  induction h generalizing w with
  | nil => rfl
  | cons hab _ ih =>
    cases w with
    | nil => simp
    | cons v vs =>
      simp only [List.zipWith_cons_cons, List.sum_cons, ih, exp_eq_of_sameDir hab]

lemma moment_congr {alpha beta : List ℝ} (h : List.Forall₂ SameDir alpha beta) (w : List ℝ) (p : ℤ) :
    moment alpha w p = moment beta w p := by
  unfold moment; rw [expSum_congr h]

lemma expSum_zip (alpha w : List ℝ) (p : ℤ) : expSum alpha w p =
    ((alpha.zip w).map fun x => (x.2 : ℂ) * Complex.exp ((p * x.1 : ℝ) * Complex.I)).sum := by
  unfold expSum
  rw [← List.map_uncurry_zip_eq_zipWith]; rfl

lemma sum_zip (alpha w : List ℝ) (h : alpha.length = w.length) :
    w.sum = ((alpha.zip w).map Prod.snd).sum := by
  rw [List.map_snd_zip]; exact h.ge

lemma moment_perm {alpha w beta v : List ℝ} (h1 : alpha.length = w.length)
    (h2 : beta.length = v.length) (hp : (alpha.zip w).Perm (beta.zip v)) (p : ℤ) :
    moment alpha w p = moment beta v p ∧ w.sum = v.sum := by
  have hs : w.sum = v.sum := by
    rw [sum_zip _ _ h1, sum_zip _ _ h2]; exact (hp.map _).sum_eq
  refine ⟨?_, hs⟩
  unfold moment
  rw [hs, expSum_zip, expSum_zip, (hp.map _).sum_eq]

lemma expSum_scale (alpha w : List ℝ) (p : ℤ) (c : ℝ) :
    expSum alpha (w.map (c * ·)) p = c * expSum alpha w p := by
  unfold expSum
  induction alpha generalizing w with
  | nil => simp
  | cons a as ih =>
    cases w with
    | nil => simp
    | cons v vs =>
      simp only [List.map_cons, List.zipWith_cons_cons, List.sum_cons, ih, mul_add]
      push_cast; ring

lemma sum_scale (w : List ℝ) (c : ℝ) : (w.map (c * ·)).sum = c * w.sum := by
  simpa using List.sum_map_mul_left w id c

lemma moment_scale (alpha w : List ℝ) (p : ℤ) {c : ℝ} (hc : c ≠ 0) :
    moment alpha (w.map (c * ·)) p = moment alpha w p := by
  unfold moment
  rw [expSum_scale, sum_scale]
  push_cast
  rw [mul_div_mul_left _ _ (by exact_mod_cast hc)]

lemma ones_append (a b : List ℝ) : ones (a ++ b) = ones a ++ ones b := by simp [ones]

lemma expSum_append (a b w v : List ℝ) (h : a.length = w.length) (p : ℤ) :
    expSum (a ++ b) (w ++ v) p = expSum a w p + expSum b v p := by
  unfold expSum
  rw [List.zipWith_append h, List.sum_append]

lemma ones_map (l : List ℝ) (f : ℝ → ℝ) : ones (l.map f) = ones l := by
  simp only [ones, List.map_map]; rfl

lemma length_ones (a : List ℝ) : (ones a).length = a.length := by simp [ones]
lemma sum_ones (a : List ℝ) : (ones a).sum = a.length := by
  simp [ones]

lemma expSum_replicate (k : ℕ) (a : ℝ) (p : ℤ) :
    expSum (List.replicate k a) (ones (List.replicate k a)) p
      = (k : ℂ) * Complex.exp ((p * a : ℝ) * Complex.I) := by
  unfold expSum ones
  simp [List.sum_replicate]

lemma expSum_expand (alpha : List ℝ) (ks : List ℕ) (p : ℤ) :
    expSum (expand alpha ks) (ones (expand alpha ks)) p
      = expSum alpha (ks.map fun k : ℕ => (k : ℝ)) p := by
  induction alpha generalizing ks with
  | nil => simp [expand, expSum]
  | cons a as ih =>
    cases ks with
    | nil => simp [expand, expSum]
    | cons k ks =>
      have h1 : expand (a :: as) (k :: ks) = List.replicate k a ++ expand as ks := by
        simp [expand]
      rw [h1, ones_append, expSum_append _ _ _ _ (length_ones _).symm, ih, expSum_replicate]
      simp [expSum]

lemma sum_expand (alpha : List ℝ) (ks : List ℕ) (h : alpha.length = ks.length) :
    (ones (expand alpha ks)).sum = (ks.map fun k : ℕ => (k : ℝ)).sum := by
  rw [sum_ones]
  induction alpha generalizing ks with
  | nil => cases ks with
    | nil => simp [expand]
    | cons => simp at h
  | cons a as ih =>
    cases ks with
    | nil => simp at h
    | cons k ks =>
      have h1 : expand (a :: as) (k :: ks) = List.replicate k a ++ expand as ks := by
        simp [expand]
      simp only [List.length_cons, add_left_inj] at h
      rw [h1]; simp [ih ks h]

lemma moment_expand (alpha : List ℝ) (ks : List ℕ) (h : alpha.length = ks.length) (p : ℤ) :
    moment (expand alpha ks) (ones (expand alpha ks)) p = moment alpha (ks.map fun k : ℕ => (k : ℝ)) p := by
  unfold moment; rw [expSum_expand, sum_expand _ _ h]

/-- A list of non-negative reals with sum 0 is all zero. -/
lemma all_zero_of_sum_eq_zero {l : List ℝ} (h : ∀ x ∈ l, 0 ≤ x) (hs : l.sum = 0) :
    ∀ x ∈ l, x = 0 := by
  intro x hx
  have := List.single_le_sum h x hx
  exact le_antisymm (by linarith) (h x hx)

/-! ### Norm bound -/

lemma norm_expSum_le (alpha w : List ℝ) (hw : ∀ x ∈ w, 0 ≤ x) (h : alpha.length = w.length) (p : ℤ) :
    ‖expSum alpha w p‖ ≤ w.sum := by
  unfold expSum
  induction alpha generalizing w with
  | nil => cases w with
    | nil => simp
    | cons => simp at h
  | cons a as ih =>
    cases w with
    | nil => simp at h
    | cons v vs =>
      simp only [List.zipWith_cons_cons, List.sum_cons]
      refine (norm_add_le _ _).trans (add_le_add ?_ (ih vs (fun x hx => hw x (by simp [hx])) (by simpa using h)))
      rw [norm_mul, Complex.norm_exp_ofReal_mul_I, mul_one, Complex.norm_real, Real.norm_eq_abs,
        abs_of_nonneg (hw v (by simp))]

lemma norm_moment_le (alpha w : List ℝ) (hw : ∀ x ∈ w, 0 ≤ x) (h : alpha.length = w.length)
    (p : ℤ) : ‖moment alpha w p‖ ≤ 1 := by
  unfold moment
  rw [norm_div, Complex.norm_real, Real.norm_eq_abs, abs_of_nonneg (List.sum_nonneg hw)]
  exact div_le_one_of_le₀ (norm_expSum_le alpha w hw h p) (List.sum_nonneg hw)

lemma exp_eq_iff_sameDir (a b : ℝ) :
    Complex.exp ((a : ℝ) * Complex.I) = Complex.exp ((b : ℝ) * Complex.I) ↔ SameDir a b := by
  rw [Complex.exp_eq_exp_iff_exists_int]
  constructor
  · rintro ⟨n, hn⟩
    refine ⟨n, ?_⟩
    have : ((a : ℂ)) * Complex.I = ((b + n * (2 * π) : ℝ) : ℂ) * Complex.I := by
      rw [hn]; push_cast; ring
    exact_mod_cast mul_right_cancel₀ Complex.I_ne_zero this
  · rintro ⟨n, rfl⟩
    exact ⟨n, by push_cast; ring⟩

/-- `z = ‖z‖ exp(i arg z)` with the normalised argument. -/
lemma polar_angmod (z : ℂ) :
    z = (‖z‖ : ℂ) * Complex.exp ((angmod2pi (Complex.arg z) : ℝ) * Complex.I) := by
  conv_lhs => rw [← Complex.norm_mul_exp_arg_mul_I z]
  congr 1
  rw [exp_eq_iff_sameDir]
  exact (angmod2pi_cong _).symm

lemma arg_sameDir_of_polar {z : ℂ} {r m : ℝ} (hr : 0 < r)
    (h : z = (r : ℂ) * Complex.exp ((m : ℝ) * Complex.I)) : SameDir (Complex.arg z) m := by
  have h1 : ‖z‖ = r := by
    rw [h, norm_mul, Complex.norm_exp_ofReal_mul_I, mul_one, Complex.norm_real, Real.norm_eq_abs,
      abs_of_pos hr]
  have h2 := Complex.norm_mul_exp_arg_mul_I z
  rw [h1] at h2
  conv_rhs at h2 => rw [h]
  have hr' : (r : ℂ) ≠ 0 := by exact_mod_cast hr.ne'
  exact (exp_eq_iff_sameDir _ _).1 (mul_left_cancel₀ hr' h2)

end Verif
