import Verif.Props.Base

/-!
# C98: the default interval of the mean of a `Circular` object
-/

set_option autoImplicit false

namespace Verif.Props

open Verif Verif.Spec Real

/-- the bootstrap ignores the weights -/
private lemma no_bootstrap {k : ℝ} {p : Prepared} {opts : MedianOpts} {e : Env} {c : CircularObj}
    (hc : CircularParts k p none opts e c) (hm : moment p.alpha (ones p.alpha) 1 = 0) :
    ¬ (c.pval < 0.05 ∧ 8 ≤ c.n ∧ c.n < 25) := by
  intro h
  have h1 := hc.meanCi
  rw [hc.method, meanCiMethod, if_pos h] at h1
  simp only [circularMeanCi, if_pos h.1] at h1
  rw [C22_bootstrap_refused] at h1
  · simp at h1
  · right; right
    rw [hm]; norm_num

lemma alpha_even {data alpha : List ℝ} {k d0 : ℝ} {m : ℕ} {rot : Option ℝ} (hk : k ≠ 0)
    (hd : data = (List.range m).map fun i : ℕ => d0 + i * (k / m)) (ha : circularAlpha data k rot = .ok alpha) :
    ∃ a0, List.Forall₂ SameDir alpha ((List.range m).map fun i : ℕ => a0 + i * (2 * π / m)) := by
  have h1 : (data.map fun x => data2rad x k) = (List.range m).map fun i : ℕ => data2rad d0 k + i * (2 * π / m) := by
    rw [hd, List.map_map]
    apply List.map_congr_left
    intro i hi
    have : (m : ℝ) ≠ 0 := by
      have := List.mem_range.1 hi
      norm_cast; omega
    simp only [Function.comp, data2rad]
    field_simp
  cases rot with
  | none =>
    simp only [circularAlpha, Except.ok.injEq] at ha
    exact ⟨data2rad d0 k, by rw [← ha, h1]; exact List.forall₂_same.2 fun x _ => CongMod.refl _ x⟩
  | some t =>
    simp only [circularAlpha, rotateData, unitCycle, bind, Except.bind, pure, Except.pure] at ha
    rw [h1] at ha
    simp only [String.reduceEq, if_false, if_true, Except.ok.injEq, List.map_map] at ha
    refine ⟨data2rad d0 k + t, ?_⟩
    rw [← ha, List.forall₂_map_left_iff, List.forall₂_map_right_iff]
    refine List.forall₂_same.2 fun i _ => ?_
    have hpi := pi_ne_zero
    simp only [Function.comp, rad2data, data2rad]
    have e1 : ∀ x : ℝ, 2 * π * x / (2 * π) = x := fun x => by field_simp
    rw [e1, e1, e1]
    refine (angmod2pi_cong _).trans ⟨0, by push_cast; ring⟩

/-- Grouped data as the constructor demands them (all `m` evenly spaced bins of the circle, with their frequencies):
no object with a significant direction and `8 ≤ n < 25` exists. The default method is then the bootstrap, which
ignores the frequencies, sees evenly spread bin centres and raises `ValueError`. -/
theorem C98_grouped_fails (data w : List ℝ) (m : ℕ) (hm : 2 ≤ m) (d0 : ℝ) (unit : String) (fc rot : Option ℝ)
    (opts : MedianOpts) (e : Env) (c : CircularObj)
    (h : circular data (some w) none unit fc rot none opts e = .ok c) (hk : c.fullCycle ≠ 0)
    (hd : data = (List.range m).map fun i : ℕ => d0 + i * (c.fullCycle / m)) :
    ¬ (c.pval < 0.05 ∧ 8 ≤ c.n ∧ c.n < 25) := by
  obtain ⟨k, alpha, p, -, ha, hp, hc⟩ := circular_ok h
  rw [hc.fullCycle] at hk hd
  obtain ⟨a0, ha0⟩ := alpha_even hk hd ha
  refine no_bootstrap hc ?_
  have : p.alpha = alpha := by
    unfold prepare at hp
    simp only at hp
    split_ifs at hp
    split at hp
    · simp at hp
    · cases hp; rfl
  rw [this]
  exact moment_even _ m hm a0 ha0

/-- The same for data binned by the constructor into `m ≥ 2` bins. -/
theorem C98_binned_fails (data : List ℝ) (w : Option (List ℝ)) (m : ℕ) (hm : 2 ≤ m) (unit : String) (fc rot : Option ℝ)
    (opts : MedianOpts) (e : Env) (c : CircularObj)
    (h : circular data w (some (histEdges m)) unit fc rot none opts e = .ok c) :
    ¬ (c.pval < 0.05 ∧ 8 ≤ c.n ∧ c.n < 25) := by
  obtain ⟨k, alpha, p, -, ha, hp, hc⟩ := circular_ok h
  refine no_bootstrap hc ?_
  have h1 : p.alpha = (List.range m).map fun i : ℕ => π / m + i * (2 * π / m) := by
    unfold prepare at hp
    simp only at hp
    split at hp
    · simp at hp
    · cases hp
      apply List.ext_getElem
      · simp [histEdges]
      · intro i h1 h2
        simp [histEdges]
        ring
  rw [h1]
  exact moment_even _ m hm _ (List.forall₂_same.2 fun x _ => CongMod.refl _ x)

/-- Ten observations, five at each of `±arccos 0.544`: the Rayleigh p value is below 0.05 and `8 ≤ n < 25`, so the default
is the bootstrap, whose own uniformity check (`exp(-n r²) > 0.05`) then raises `ValueError`. -/
theorem C98_thresholds_disagree (e : Env) :
    circular (List.replicate 5 (arccos 0.544) ++ List.replicate 5 (-arccos 0.544)) none none "radian" none none none {} e
      = .error .valueError ∧
    ∃ ray, rayleighTest (some (List.replicate 5 (arccos 0.544) ++ List.replicate 5 (-arccos 0.544))) none none none 1 []
      = .ok ray ∧ ray.pval < 0.05 := by
  set t := arccos 0.544 with ht
  have hcos : cos t = 0.544 := cos_arccos (by norm_num) (by norm_num)
  set l := List.replicate 5 t ++ List.replicate 5 (-t) with hl
  have hpi := pi_ne_zero
  have halpha : circularAlpha l (2 * π) none = .ok l := by
    simp only [circularAlpha, Except.ok.injEq]
    conv_rhs => rw [← List.map_id l]
    apply List.map_congr_left
    intro x _
    simp only [data2rad, id]
    field_simp
  have hlen : l.length = 10 := by simp [hl]
  have hsum : (ones l).sum = 10 := by simp [ones, hlen, List.map_const']; norm_num
  have hmom : moment l (ones l) 1 = ((0.544 : ℝ) : ℂ) := by
    rw [moment, expSum_ones, hsum, hl, resultant_append]
    have : Complex.exp ((t : ℂ) * Complex.I) + Complex.exp (((-t : ℝ) : ℂ) * Complex.I) = 2 * ((0.544 : ℝ) : ℂ) := by
      rw [← hcos]
      push_cast
      rw [Complex.cos]; ring
    simp only [resultant, List.map_replicate, List.sum_replicate, nsmul_eq_mul]
    rw [← mul_add, this]
    push_cast
    ring
  have hnorm : ‖moment l (ones l) 1‖ = 0.544 := by
    rw [hmom, Complex.norm_real]; norm_num
  have hint : pyInt (ones l).sum = 10 := by
    rw [hsum]; simp only [pyInt]; norm_num
  have he1 := exp_one_gt_d9
  have he2 := exp_one_lt_d9
  have he3 : exp 3 = exp 1 ^ 3 := by rw [← exp_nat_mul]; norm_num
  have hlow : (20 : ℝ) < exp 3 := by
    rw [he3]
    calc (20 : ℝ) < 2.7182818283 ^ 3 := by norm_num
      _ ≤ _ := pow_le_pow_left₀ (by norm_num) he1.le 3
  have hup : exp 3 < 20.1 := by
    rw [he3]
    calc exp 1 ^ 3 ≤ 2.7182818286 ^ 3 := pow_le_pow_left₀ (exp_pos _).le he2.le 3
      _ < _ := by norm_num
  have hpv : exp (sqrt (1 + 4 * ((10 : ℤ) : ℝ) + 4 * (((10 : ℤ) : ℝ) ^ 2 - (((10 : ℤ) : ℝ) * 0.544) ^ 2))
      - (1 + 2 * ((10 : ℤ) : ℝ))) < 0.05 := by
    have h1 : sqrt (1 + 4 * ((10 : ℤ) : ℝ) + 4 * (((10 : ℤ) : ℝ) ^ 2 - (((10 : ℤ) : ℝ) * 0.544) ^ 2)) ≤ 18 := by
      apply sqrt_le_iff.2; norm_num
    calc _ ≤ exp (-3) := by apply exp_le_exp.2; push_cast; linarith
      _ = (exp 3)⁻¹ := exp_neg 3
      _ < 20⁻¹ := inv_strictAnti₀ (by norm_num) hlow
      _ = 0.05 := by norm_num
  have hboot : 0.05 < exp (-(l.length * ‖moment l (ones l) 1‖ ^ 2)) := by
    rw [hlen, hnorm]
    have h1 : exp 2.95936 < 20 := by
      have h2 : exp 2.95936 * exp 0.04064 = exp 3 := by rw [← exp_add]; norm_num
      have h3 := add_one_le_exp (0.04064 : ℝ)
      nlinarith [exp_pos (2.95936 : ℝ)]
    have h2 : (-(((10 : ℕ) : ℝ) * 0.544 ^ 2)) = -2.95936 := by norm_num
    rw [h2, exp_neg]
    calc (0.05 : ℝ) = 20⁻¹ := by norm_num
      _ < _ := inv_strictAnti₀ (exp_pos _) h1
  constructor
  · simp only [circular, fullCycleOf, String.reduceEq, if_false, if_true, Except.bind, halpha, prepare]
    unfold circularOf
    simp only
    rw [circMeanAndR_eq, if_neg (by rw [hsum]; norm_num)]
    simp only [hint, hnorm]
    simp only [rayleighTest, rayleighOf]
    rw [if_neg (by norm_num), if_neg (by norm_num), if_neg (by norm_num)]
    simp only [Except.bind, circularMeanCi, meanCiMethod]
    rw [if_pos ⟨hpv, by norm_num, by norm_num⟩]
    simp only [if_pos hpv]
    rw [C22_bootstrap_refused _ _ _ _ _ _ _ _ _ (Or.inr (Or.inr hboot))]
  · have hr : circR l (ones l) = some 0.544 := by
      rw [circR_eq, if_neg (by rw [hsum]; norm_num), hnorm]
    have hround : roundEven 10 = 10 := by
      have := roundEven_intCast 10
      simpa using this
    simp only [rayleighTest, rayleighSample, weightsOf, Except.bind, hlen, hsum, hr, hround, rayleighOf]
    rw [if_neg (by norm_num), if_neg (by norm_num), if_neg (by norm_num), if_neg (by simp [isclose, rtolDefault, atolDefault]; positivity)]
    simp only
    rw [if_neg (by norm_num), if_neg (by norm_num)]
    exact ⟨_, rfl, hpv⟩

/-- Ten observations in the first of four quadrants, given as frequencies: `ValueError`. -/
theorem C98_grouped_witness (e : Env) :
    circular [0, 90, 180, 270] (some [10, 0, 0, 0]) none "degree" none none none {} e = .error .valueError := by
  have ha : circularAlpha [0, 90, 180, 270] 360 none = .ok [0, π / 2, π, 3 * π / 2] := by
    simp only [circularAlpha, List.map_cons, List.map_nil, data2rad, Except.ok.injEq]
    refine congrArg₂ _ (by ring) (congrArg₂ _ (by ring) (congrArg₂ _ (by ring) (congrArg₂ _ (by ring) rfl)))
  obtain ⟨b, hb⟩ : ∃ b, prepare [0, π / 2, π, 3 * π / 2] (some [10, 0, 0, 0]) none
      = .ok ⟨[0, π / 2, π, 3 * π / 2], [10, 0, 0, 0], true, b⟩ := by
    unfold prepare
    simp only
    rw [if_neg (by simp)]
    simp only [diff, List.tail_cons, List.zipWith_cons_cons, List.zipWith_nil_right, minL]
    exact ⟨_, rfl⟩
  have hsum : ([10, 0, 0, 0] : List ℝ).sum = 10 := by simp
  have hnorm : ‖moment [0, π / 2, π, 3 * π / 2] [10, 0, 0, 0] 1‖ = 1 := by
    have : moment [0, π / 2, π, 3 * π / 2] [10, 0, 0, 0] 1 = 1 := by
      simp [moment, expSum]
    rw [this]; simp
  have hint : pyInt ([10, 0, 0, 0] : List ℝ).sum = 10 := by
    rw [hsum]; simp only [pyInt]; norm_num
  have hpv : exp (sqrt (1 + 4 * ((10 : ℤ) : ℝ) + 4 * (((10 : ℤ) : ℝ) ^ 2 - (((10 : ℤ) : ℝ) * 1) ^ 2))
      - (1 + 2 * ((10 : ℤ) : ℝ))) < 0.05 := by
    have h1 : sqrt (1 + 4 * ((10 : ℤ) : ℝ) + 4 * (((10 : ℤ) : ℝ) ^ 2 - (((10 : ℤ) : ℝ) * 1) ^ 2)) ≤ 18 := by
      apply sqrt_le_iff.2; norm_num
    have he1 := exp_one_gt_d9
    calc _ ≤ exp (-3) := by apply exp_le_exp.2; push_cast at h1 ⊢; linarith
      _ = (exp 1 ^ 3)⁻¹ := by rw [exp_neg, ← exp_nat_mul]; norm_num
      _ ≤ (2.7182818283 ^ 3)⁻¹ :=
        inv_anti₀ (by norm_num) (pow_le_pow_left₀ (by norm_num) he1.le 3)
      _ < 0.05 := by norm_num
  have hboot : 0.05 < exp (-((([0, π / 2, π, 3 * π / 2] : List ℝ).length : ℝ) *
      ‖moment [0, π / 2, π, 3 * π / 2] (ones [0, π / 2, π, 3 * π / 2]) 1‖ ^ 2)) := by
    rw [moment_even _ 4 (by norm_num) 0]
    · norm_num
    · have : ([0, π / 2, π, 3 * π / 2] : List ℝ) = (List.range 4).map fun i : ℕ => 0 + (i : ℝ) * (2 * π / (4 : ℕ)) := by
        simp only [List.range, List.range.loop, List.map_cons, List.map_nil]
        push_cast
        refine congrArg₂ _ (by ring) (congrArg₂ _ (by ring) (congrArg₂ _ (by ring) (congrArg₂ _ (by ring) rfl)))
      rw [← this]
      exact List.forall₂_same.2 fun x _ => CongMod.refl _ x
  simp only [circular, fullCycleOf, if_true, Except.bind, ha, hb]
  unfold circularOf
  simp only
  rw [circMeanAndR_eq, if_neg (by rw [hsum]; norm_num)]
  simp only [hint, hnorm]
  simp only [rayleighTest, rayleighOf]
  rw [if_neg (by norm_num), if_neg (by norm_num), if_neg (by norm_num)]
  simp only [Except.bind, circularMeanCi, meanCiMethod]
  rw [if_pos ⟨hpv, by norm_num, by norm_num⟩]
  simp only [if_pos hpv]
  rw [C22_bootstrap_refused _ _ _ _ _ _ _ _ _ (Or.inr (Or.inr hboot))]

/-- With at least 25 observations the default interval of the mean is always found: a Rayleigh p value below 0.05 rules
out the over-dispersion that the dispersion method refuses. (`z ≤ 1.96` is the normal quantile for 95 %.) -/
theorem C98_large_samples (alpha w : List ℝ) (hlen : alpha.length = w.length) (hw : ∀ x ∈ w, 0 ≤ x)
    (n : ℤ) (hn : 25 ≤ n) (hsum : (n : ℝ) ≤ w.sum) (m r b : ℝ) (g : Bool) (e : Env)
    (hr : r = ‖moment alpha w 1‖) (ray : RayleighResult)
    (hray : rayleighTest none none (some r) (some n) 1 [] = .ok ray) (hp : ray.pval < 0.05)
    (hz0 : 0 ≤ e.z) (hz : e.z ≤ 1.96) :
    ∃ lb ub d, circularMeanCi ⟨alpha, w, g, b⟩ (meanCiMethod none ray.pval n) ray.pval (some m) r n e
        = .ok (some (lb, ub)) ∧ 0 ≤ d ∧ d < π / 2 ∧ IsIntervalAround m d lb ub := by
  obtain ⟨-, hr1, hpv⟩ := rayleigh_ok hray
  have hp' := hp
  rw [hpv] at hp
  have hN : (25 : ℝ) ≤ n := by exact_mod_cast hn
  have hr0 : 0 ≤ r := by rw [hr]; exact norm_nonneg _
  have hZ : 1.93 < n * r ^ 2 := by
    by_contra hcon
    push Not at hcon
    have h1 : -2.5 ≤ sqrt (1 + 4 * (n : ℝ) + 4 * ((n : ℝ) ^ 2 - (n * r) ^ 2)) - (1 + 2 * n) := by
      have : 2 * (n : ℝ) - 1.5 ≤ sqrt (1 + 4 * (n : ℝ) + 4 * ((n : ℝ) ^ 2 - (n * r) ^ 2)) := by
        apply le_sqrt_of_sq_le
        nlinarith
      linarith
    have h2 : (0.05 : ℝ) < exp (-2.5) := by
      have h3 : exp 2.5 < 20 := by
        have he2 := exp_one_lt_d9
        have h4 : exp 2.5 * exp 0.5 = exp 3 := by rw [← exp_add]; norm_num
        have h5 := add_one_le_exp (0.5 : ℝ)
        have h6 : exp 3 < 20.1 := by
          calc exp 3 = exp 1 ^ 3 := by rw [← exp_nat_mul]; norm_num
            _ ≤ 2.7182818286 ^ 3 := pow_le_pow_left₀ (exp_pos _).le he2.le 3
            _ < 20.1 := by norm_num
        nlinarith [exp_pos (2.5 : ℝ)]
      rw [exp_neg]
      calc (0.05 : ℝ) = 20⁻¹ := by norm_num
        _ < _ := inv_strictAnti₀ (exp_pos _) h3
    linarith [exp_le_exp.2 h1]
  have hrpos : 0 < r := by
    rcases hr0.eq_or_lt with h | h
    · rw [← h] at hZ; norm_num at hZ
    · exact h
  have hmne : moment alpha w 1 ≠ 0 := by
    rw [← norm_ne_zero_iff, ← hr]; exact hrpos.ne'
  have hW : (25 : ℝ) ≤ w.sum := hN.trans hsum
  obtain ⟨lb, ub, d, h1, h2, h3, -, h5⟩ := C20_dispersion_interval alpha w hlen hw (some m) m 0.95 e.chi e.z e.draws
    (Or.inl rfl) hW hmne hz0 (by
      rw [← hr]
      have h2 : (1 - ‖moment alpha w 2‖) / (2 * r ^ 2) / w.sum ≤ (1 / 1.96) ^ 2 * (0.999) := by
        rw [div_div, div_le_iff₀ (by positivity)]
        have : n * r ^ 2 ≤ w.sum * r ^ 2 := mul_le_mul_of_nonneg_right hsum (by positivity)
        have := norm_nonneg (moment alpha w 2)
        nlinarith
      calc e.z * sqrt ((1 - ‖moment alpha w 2‖) / (2 * r ^ 2) / w.sum) ≤ 1.96 * sqrt ((1 / 1.96) ^ 2 * (0.999)) :=
            mul_le_mul hz (sqrt_le_sqrt h2) (sqrt_nonneg _) (by norm_num)
        _ = sqrt 0.999 := by
            rw [sqrt_mul (by positivity), sqrt_sq (by norm_num)]; ring
        _ < 1 := by rw [sqrt_lt' (by norm_num)]; norm_num)
  refine ⟨lb, ub, d, ?_, h2, h3, h5⟩
  have hmeth : meanCiMethod none ray.pval n = some "dispersion" := by
    simp only [meanCiMethod]
    rw [if_neg (by rintro ⟨-, -, h⟩; omega), if_pos ⟨hp', hn⟩]
  rw [hmeth]
  simp only [circularMeanCi, if_pos hp']
  rw [← h1]
  simp [circMeanCi, circMeanCiRaw]

/-- The same for a whole object: whatever the data, unit and grouping, with at least 25 observations and a significant
direction the interval of the mean is there and surrounds the mean. -/
theorem C98_large_object (data : List ℝ) (w edges : Option (List ℝ)) (unit : String) (fc rot : Option ℝ)
    (opts : MedianOpts) (e : Env) (c : CircularObj) (h : circular data w edges unit fc rot none opts e = .ok c)
    (hw : ∀ x ∈ c.w, 0 ≤ x) (hn : 25 ≤ c.n) (hp : c.pval < 0.05) (m : ℝ) (hm : c.mean = some m)
    (hz0 : 0 ≤ e.z) (hz : e.z ≤ 1.96) :
    ∃ lb ub d, c.meanCi = some (lb, ub) ∧ 0 ≤ d ∧ d < π / 2 ∧ IsIntervalAround m d lb ub := by
  obtain ⟨k, alpha, p, -, -, hpr, hc⟩ := circular_ok h
  have hlen : p.alpha.length = p.w.length := by
    unfold prepare at hpr
    split at hpr
    · cases hpr; simp [ones]
    · split_ifs at hpr with hl
      split at hpr
      · simp at hpr
      · cases hpr; exact (not_not.1 hl).symm
    · simp only at hpr
      split at hpr
      · simp at hpr
      · cases hpr
        rename_i edges _ _ _
        have : ∀ l : List ℝ, (histCounts alpha l).length = l.length - 1 := by
          intro l
          induction l with
          | nil => simp [histCounts]
          | cons a l ih =>
            cases l with
            | nil => simp [histCounts]
            | cons b l =>
              cases l with
              | nil => simp [histCounts]
              | cons c l => simpa [histCounts] using ih
        simp [this]
  have hr0 : 0 ≤ c.r := by rw [hc.r]; exact norm_nonneg _
  have hray : ∃ ray, rayleighTest none none (some c.r) (some c.n) 1 [] = .ok ray := by
    simp only [rayleighTest, rayleighOf]
    rw [if_neg (by norm_num)]
    have h1 : ¬ c.n ≤ 0 := not_le.2 hc.n_pos
    simp [h1, hr0, hc.r_le]
  obtain ⟨ray, hray⟩ := hray
  have hpv : ray.pval = c.pval := by rw [(rayleigh_ok hray).2.2, hc.pval]
  have hs : (c.n : ℝ) ≤ p.w.sum := by
    rw [hc.n]
    unfold pyInt
    split_ifs with h0
    · exact Int.floor_le _
    · exfalso
      apply h0
      exact List.sum_nonneg (by rw [← hc.w]; exact hw)
  obtain ⟨lb, ub, d, h1, h2⟩ := C98_large_samples p.alpha p.w hlen (by rw [← hc.w]; exact hw) c.n hn hs m c.r p.binSize
    p.grouped e hc.r ray hray (by rw [hpv]; exact hp) hz0 hz
  refine ⟨lb, ub, d, ?_, h2⟩
  have h3 := hc.meanCi
  rw [hc.method, hm, ← hpv, h1] at h3
  exact (Except.ok.inj h3).symm

end Verif.Props
