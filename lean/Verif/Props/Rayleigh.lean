import Verif.Model.HypOne
import Verif.Lemmas.Descriptive
import Verif.Lemmas.Lists

/-!
# C30, C31 (Rayleigh part): Rayleigh test of uniformity
-/

set_option autoImplicit false

namespace Verif.Props

open Verif Verif.Spec Real

private lemma rayleighOf_ok {r : ℝ} {n : ℤ} (B : ℤ) (draws : List (List ℝ)) (hn : 0 < n)
    (h0 : 0 ≤ r) (h1 : r ≤ 1) : ∃ res, rayleighOf r n B draws = .ok res ∧ res.r = r ∧
      res.z = n * r ^ 2 ∧
      res.pval = exp (sqrt (1 + 4 * n + 4 * ((n : ℝ) ^ 2 - (n * r) ^ 2)) - (1 + 2 * n)) ∧
      res.bootstrapPval = if B > 1 then
        some (mcPvalue (draws.map fun u =>
          sqrt ((u.map cos).sum ^ 2 + (u.map sin).sum ^ 2) ^ 2 / n) (n * r ^ 2)) else none := by
  refine ⟨_, by rw [rayleighOf, if_neg (not_le.2 hn), if_neg (not_not.2 ⟨h0, h1⟩)], rfl, rfl, rfl, rfl⟩

private lemma arg_nonneg {r n : ℝ} (hn : 0 < n) (h0 : 0 ≤ r) (h1 : r ≤ 1) :
    1 + 2 * n * 0 ≤ 1 + 4 * n + 4 * (n ^ 2 - (n * r) ^ 2) := by
  have : (n * r) ^ 2 ≤ n ^ 2 := by
    apply pow_le_pow_left₀ (by positivity)
    nlinarith
  linarith

/-- With `0 ≤ r ≤ 1` and `n ≥ 1` the test succeeds, `z = n r²`, the analytic p value is in `(0, 1]`,
and it is 1 exactly for `r = 0`. -/
theorem C30_rayleigh (alpha w : Option (List ℝ)) (r : ℝ) (n B : ℤ) (draws : List (List ℝ))
    (hB : 1 ≤ B) (hn : 1 ≤ n) (h0 : 0 ≤ r) (h1 : r ≤ 1) :
    ∃ res, rayleighTest alpha w (some r) (some n) B draws = .ok res ∧ res.r = r ∧
      res.z = n * r ^ 2 ∧ 0 < res.pval ∧ res.pval ≤ 1 ∧ (res.pval = 1 ↔ r = 0) := by
  obtain ⟨res, hok, hr, hz, hp, -⟩ := rayleighOf_ok (n := n) B draws (by omega) h0 h1
  have hn' : (1 : ℝ) ≤ n := by exact_mod_cast hn
  have hsq : (1 + 2 * (n : ℝ)) ^ 2 = 1 + 4 * n + 4 * (n : ℝ) ^ 2 := by ring
  have hle : sqrt (1 + 4 * n + 4 * ((n : ℝ) ^ 2 - (n * r) ^ 2)) ≤ 1 + 2 * n := by
    apply sqrt_le_iff.2 ⟨by linarith, ?_⟩
    rw [hsq]; nlinarith [sq_nonneg ((n : ℝ) * r)]
  refine ⟨res, by simp only [rayleighTest]; rw [if_neg (by omega)]; exact hok, hr, hz, ?_, ?_, ?_⟩
  · rw [hp]; exact exp_pos _
  · rw [hp, exp_le_one_iff]; linarith
  · rw [hp, exp_eq_one_iff]
    constructor
    · intro h
      have h2 : sqrt (1 + 4 * n + 4 * ((n : ℝ) ^ 2 - (n * r) ^ 2)) = 1 + 2 * n := by linarith
      rw [sqrt_eq_iff_mul_self_eq (by have := arg_nonneg (n := (n : ℝ)) (by linarith) h0 h1; linarith)
        (by linarith)] at h2
      have : ((n : ℝ) * r) ^ 2 = 0 := by nlinarith
      have := pow_eq_zero_iff (two_ne_zero) |>.1 this
      rcases mul_eq_zero.1 this with h | h
      · linarith
      · exact h
    · rintro rfl
      rw [show 1 + 4 * (n : ℝ) + 4 * ((n : ℝ) ^ 2 - (n * 0) ^ 2) = (1 + 2 * n) ^ 2 by ring,
        sqrt_sq (by linarith)]
      ring

/-- The analytic p value strictly decreases when the resultant length grows (same sample size). -/
theorem C30_rayleigh_antitone (alpha w alpha' w' : Option (List ℝ)) (r r' : ℝ) (n B B' : ℤ)
    (draws draws' : List (List ℝ)) (hB : 1 ≤ B) (hB' : 1 ≤ B') (hn : 1 ≤ n) (h0 : 0 ≤ r)
    (hrr : r < r') (h1 : r' ≤ 1) (res res' : RayleighResult)
    (h : rayleighTest alpha w (some r) (some n) B draws = .ok res)
    (h' : rayleighTest alpha' w' (some r') (some n) B' draws' = .ok res') :
    res'.pval < res.pval := by
  obtain ⟨s, hs, -, -, hp, -⟩ := rayleighOf_ok (r := r) B draws (n := n) (by omega) h0 (by linarith)
  obtain ⟨s', hs', -, -, hp', -⟩ :=
    rayleighOf_ok (r := r') B' draws' (n := n) (by omega) (by linarith) h1
  simp only [rayleighTest] at h h'
  rw [if_neg (by omega), hs] at h
  rw [if_neg (by omega), hs'] at h'
  simp only [Except.ok.injEq] at h h'
  subst h h'
  have hn' : (1 : ℝ) ≤ n := by exact_mod_cast hn
  rw [hp, hp', exp_lt_exp]
  have := arg_nonneg (n := (n : ℝ)) (by linarith) (by linarith : 0 ≤ r') h1
  have hlt : sqrt (1 + 4 * n + 4 * ((n : ℝ) ^ 2 - (n * r') ^ 2))
      < sqrt (1 + 4 * n + 4 * ((n : ℝ) ^ 2 - (n * r) ^ 2)) := by
    apply sqrt_lt_sqrt (by linarith)
    have : ((n : ℝ) * r) ^ 2 < (n * r') ^ 2 := by
      apply pow_lt_pow_left₀ _ (by positivity) two_ne_zero
      exact mul_lt_mul_of_pos_left hrr (by linarith)
    linarith
  linarith

/-- For a fixed non-zero resultant length the analytic p value strictly decreases in the sample
size. -/
theorem C30_rayleigh_antitone_n (alpha w alpha' w' : Option (List ℝ)) (r : ℝ) (n n' B B' : ℤ)
    (draws draws' : List (List ℝ)) (hB : 1 ≤ B) (hB' : 1 ≤ B') (hn : 1 ≤ n) (hnn : n < n')
    (h0 : 0 < r) (h1 : r ≤ 1) (res res' : RayleighResult)
    (h : rayleighTest alpha w (some r) (some n) B draws = .ok res)
    (h' : rayleighTest alpha' w' (some r) (some n') B' draws' = .ok res') :
    res'.pval < res.pval := by
  obtain ⟨s, hs, -, -, hp, -⟩ := rayleighOf_ok B draws (n := n) (by omega) h0.le h1
  obtain ⟨s', hs', -, -, hp', -⟩ := rayleighOf_ok B' draws' (n := n') (by omega) h0.le h1
  simp only [rayleighTest] at h h'
  rw [if_neg (by omega), hs] at h
  rw [if_neg (by omega), hs'] at h'
  simp only [Except.ok.injEq] at h h'
  subst h h'
  have hn' : (1 : ℝ) ≤ n := by exact_mod_cast hn
  have hd : (n : ℝ) < n' := by exact_mod_cast hnn
  rw [hp, hp', exp_lt_exp]
  set c := 1 - r ^ 2 with hc
  have hc0 : 0 ≤ c := by rw [hc]; nlinarith
  have hc1 : c < 1 := by rw [hc]; nlinarith
  have e : ∀ x : ℝ, 1 + 4 * x + 4 * (x ^ 2 - (x * r) ^ 2) = 1 + 4 * x + 4 * c * x ^ 2 := by
    intro x; rw [hc]; ring
  rw [e, e]
  have hA : 1 + 2 * c * n < sqrt (1 + 4 * n + 4 * c * (n : ℝ) ^ 2) := by
    apply lt_sqrt_of_sq_lt
    have h2 : 0 < (1 - c) * n := mul_pos (by linarith) (by linarith)
    have h3 : 0 ≤ c * ((1 - c) * n) * n := by positivity
    nlinarith
  have hS := sq_sqrt (by positivity : 0 ≤ 1 + 4 * n + 4 * c * (n : ℝ) ^ 2)
  set S := sqrt (1 + 4 * n + 4 * c * (n : ℝ) ^ 2)
  have hS' : sqrt (1 + 4 * n' + 4 * c * (n' : ℝ) ^ 2) < S + 2 * (n' - n) := by
    have hpos : 0 < 1 + 2 * c * (n : ℝ) := by positivity
    rw [sqrt_lt' (by linarith)]
    have hd' : 0 < (n' : ℝ) - n := by linarith
    have h4 : 0 < ((n' : ℝ) - n) * (S - (1 + 2 * c * n)) := mul_pos hd' (by linarith)
    have h5 : 0 ≤ (1 - c) * ((n' : ℝ) - n) ^ 2 := mul_nonneg (by linarith) (sq_nonneg _)
    nlinarith
  linarith

/-- From data: with at least one observation (unit weights) the test succeeds, and its `r` is the
length of the mean of the unit vectors. -/
theorem C30_rayleigh_sample (alpha : List ℝ) (B : ℤ) (draws : List (List ℝ)) (hB : 1 ≤ B)
    (hne : alpha ≠ []) :
    ∃ res, rayleighTest (some alpha) none none none B draws = .ok res ∧
      res.r = ‖moment alpha (ones alpha) 1‖ ∧
      res.z = alpha.length * ‖moment alpha (ones alpha) 1‖ ^ 2 ∧ 0 < res.pval ∧ res.pval ≤ 1 ∧
      rayleighTest none none (some res.r) (some alpha.length) B draws = .ok res := by
  have hpos : 0 < alpha.length := List.length_pos_iff.2 hne
  have hpos' : (0 : ℝ) < alpha.length := by exact_mod_cast hpos
  have hr : roundEven (alpha.length : ℝ) = alpha.length := by
    have := roundEven_intCast alpha.length; simpa using this
  have hs : rayleighSample (some alpha) none
      = .ok (‖moment alpha (ones alpha) 1‖, (alpha.length : ℤ)) := by
    simp only [rayleighSample, weightsOf, Except.bind, sum_ones]
    rw [if_neg hpos.ne', if_neg (not_le.2 hpos'), hr, if_neg, circR_eq, if_neg]
    · rw [sum_ones]; exact hpos'.ne'
    · simp only [not_not, isclose, rtolDefault, atolDefault]
      simp only [Int.cast_natCast, sub_self, abs_zero]
      positivity
  have h1 : ‖moment alpha (ones alpha) 1‖ ≤ 1 :=
    norm_moment_le _ _ (by simp [ones]) (length_ones alpha).symm 1
  obtain ⟨res, hok, hrr, hz, hp0, hp1, -⟩ := C30_rayleigh none none _ (alpha.length : ℤ) B draws hB
    (by exact_mod_cast hpos) (norm_nonneg (moment alpha (ones alpha) 1)) h1
  refine ⟨res, ?_, hrr, by simpa using hz, hp0, hp1, by rw [hrr]; exact hok⟩
  simp only [rayleighTest] at hok ⊢
  rw [if_neg (by omega)] at hok ⊢
  rw [hs]; exact hok

/-- Invalid requests are refused. -/
theorem C30_rayleigh_refused (alpha w : Option (List ℝ)) (r : ℝ) (n : Option ℤ) (B : ℤ)
    (draws : List (List ℝ))
    (h : B ≤ 0 ∨ r < 0 ∨ 1 < r ∨ n = none ∨ ∃ k, n = some k ∧ k ≤ 0) :
    rayleighTest alpha w (some r) n B draws = .error .valueError := by
  simp only [rayleighTest]
  split_ifs with hB
  · rfl
  · cases n with
    | none => rfl
    | some k =>
      simp only [rayleighOf]
      rcases h with h | h | h | h | ⟨k', h, hk⟩
      · exact absurd h hB
      · split_ifs with h1 h2
        · rfl
        · exact absurd h2.1 (by linarith)
        · rfl
      · split_ifs with h1 h2
        · rfl
        · exact absurd h2.2 (by linarith)
        · rfl
      · cases h
      · cases h; rw [if_pos hk]

/-- Invalid data are refused. -/
theorem C30_rayleigh_refused_sample (alpha w : Option (List ℝ)) (n : Option ℤ) (B : ℤ)
    (draws : List (List ℝ))
    (h : alpha = none ∨ alpha = some [] ∨
      ∃ a v, alpha = some a ∧ w = some v ∧ (v.length ≠ a.length ∨ v.sum ≤ 0)) :
    rayleighTest alpha w none n B draws = .error .valueError := by
  have : rayleighSample alpha w = .error .valueError := by
    rcases h with h | h | ⟨a, v, ha, hv, h⟩
    · subst h; rfl
    · subst h; rfl
    · subst ha hv
      simp only [rayleighSample, weightsOf]
      split_ifs with h1 h2
      · rfl
      · rfl
      · simp only [Except.bind]
        rw [if_pos (h.resolve_left h2)]
  simp only [rayleighTest, this]
  split_ifs <;> rfl

private lemma sq_resultant (u : List ℝ) :
    sqrt ((u.map cos).sum ^ 2 + (u.map sin).sum ^ 2) ^ 2 = ‖expSum u (ones u) 1‖ ^ 2 := by
  rw [sq_sqrt (by positivity), ← Complex.normSq_eq_norm_sq, Complex.normSq_apply]
  have hc : (expSum u (ones u) 1).re = (u.map cos).sum := by
    have := zip_cos_sum u (ones u) 1 0
    simp only [Int.cast_one, one_mul, sub_zero, neg_zero, Complex.ofReal_zero, zero_mul,
      Complex.exp_zero] at this
    rw [← this, ones]
    clear this
    induction u with
    | nil => simp
    | cons a u ih => simp at ih ⊢; exact ih
  have hs : (expSum u (ones u) 1).im = (u.map sin).sum := by
    have := zip_sin_sum u (ones u) 1 0
    simp only [Int.cast_one, one_mul, sub_zero, neg_zero, Complex.ofReal_zero, zero_mul,
      Complex.exp_zero] at this
    rw [← this, ones]
    clear this hc
    induction u with
    | nil => simp
    | cons a u ih => simp at ih ⊢; exact ih
  rw [hc, hs]; ring

lemma mcPvalue_eq (stats : List ℝ) (x : ℝ) : ∃ k : ℕ, 1 ≤ k ∧ k ≤ stats.length + 1 ∧
    k = (stats.countP fun s => decide (x ≤ s)) + 1 ∧
    mcPvalue stats x = (k : ℝ) / ((stats.length : ℝ) + 1) :=
  ⟨_, by omega, by have := List.countP_le_length (p := fun s => decide (x ≤ s)) (l := stats); omega,
    rfl, by unfold mcPvalue; push_cast; rfl⟩

lemma mcPvalue_antitone (stats : List ℝ) {x y : ℝ} (h : x ≤ y) :
    mcPvalue stats y ≤ mcPvalue stats x := by
  unfold mcPvalue
  apply div_le_div_of_nonneg_right _ (by positivity)
  have : (stats.countP fun s => decide (y ≤ s)) ≤ stats.countP fun s => decide (x ≤ s) :=
    List.countP_mono_left (fun s _ hs => by simp only [decide_eq_true_eq] at *; linarith)
  have : ((stats.countP fun s => decide (y ≤ s) : ℕ) : ℝ)
      ≤ (stats.countP fun s => decide (x ≤ s) : ℕ) := by exact_mod_cast this
  linarith

/-- For `B ≥ 2` the simulated p value is `k/(B+1)`, where `k - 1` counts the simulated samples whose
squared resultant over `n` is at least the observed `z`; for `B = 1` there is none. -/
theorem C31_rayleigh (alpha w : Option (List ℝ)) (r : ℝ) (n B : ℤ) (draws : List (List ℝ))
    (hlen : (draws.length : ℤ) = B) (res : RayleighResult)
    (h : rayleighTest alpha w (some r) (some n) B draws = .ok res) :
    (B = 1 → res.bootstrapPval = none) ∧
    (2 ≤ B → ∃ k : ℕ, 1 ≤ k ∧ (k : ℤ) ≤ B + 1 ∧
      k = (draws.countP fun u => decide (n * r ^ 2 ≤ ‖expSum u (ones u) 1‖ ^ 2 / n)) + 1 ∧
      res.bootstrapPval = some ((k : ℝ) / (B + 1))) := by
  simp only [rayleighTest] at h
  split_ifs at h with hB
  have hn : 0 < n := by
    by_contra hn; simp [rayleighOf, not_lt.1 hn] at h
  have hr : 0 ≤ r ∧ r ≤ 1 := by
    by_contra hr; rw [rayleighOf, if_neg (by omega), if_pos hr] at h; cases h
  obtain ⟨res', hok, -, -, -, hb⟩ := rayleighOf_ok B draws hn hr.1 hr.2
  rw [hok] at h
  cases h
  constructor
  · rintro rfl; simpa using hb
  · intro hB2
    rw [if_pos (by omega)] at hb
    obtain ⟨k, hk1, hk2, hk, he⟩ := mcPvalue_eq (draws.map fun u =>
      sqrt ((u.map cos).sum ^ 2 + (u.map sin).sum ^ 2) ^ 2 / n) (n * r ^ 2)
    rw [List.length_map] at hk2
    refine ⟨k, hk1, by omega, ?_, ?_⟩
    · rw [hk, List.countP_map]
      congr 2
      funext u
      simp only [Function.comp_apply, sq_resultant]
    · have : ((draws.length : ℤ) : ℝ) = (B : ℝ) := by rw [hlen]
      rw [hb, he, List.length_map, ← this, Int.cast_natCast]

/-- A larger observed resultant never gets a larger simulated p value (same draws). -/
theorem C31_rayleigh_antitone (alpha w : Option (List ℝ)) (r r' : ℝ) (n B : ℤ)
    (draws : List (List ℝ)) (hrr : r ≤ r') (res res' : RayleighResult) (p p' : ℝ)
    (h : rayleighTest alpha w (some r) (some n) B draws = .ok res)
    (h' : rayleighTest alpha w (some r') (some n) B draws = .ok res')
    (hp : res.bootstrapPval = some p) (hp' : res'.bootstrapPval = some p') : p' ≤ p := by
  simp only [rayleighTest] at h h'
  split_ifs at h h' with hB
  have hn : 0 < n := by
    by_contra hn; simp [rayleighOf, not_lt.1 hn] at h
  have hr : 0 ≤ r ∧ r ≤ 1 := by
    by_contra hr; rw [rayleighOf, if_neg (by omega), if_pos hr] at h; cases h
  have hr' : 0 ≤ r' ∧ r' ≤ 1 := by
    by_contra hr; rw [rayleighOf, if_neg (by omega), if_pos hr] at h'; cases h'
  obtain ⟨s, hok, -, -, -, hb⟩ := rayleighOf_ok B draws hn hr.1 hr.2
  obtain ⟨s', hok', -, -, -, hb'⟩ := rayleighOf_ok B draws hn hr'.1 hr'.2
  rw [hok] at h
  rw [hok'] at h'
  cases h; cases h'
  rw [hb] at hp
  rw [hb'] at hp'
  split_ifs at hp hp' with hB2
  cases hp; cases hp'
  apply mcPvalue_antitone
  have : (0 : ℝ) < n := by exact_mod_cast hn
  exact mul_le_mul_of_nonneg_left (pow_le_pow_left₀ hr.1 hrr 2) this.le

/-- A concrete run: ten observations, resultant length 1/2, two simulated samples. -/
example : ∃ res, rayleighTest none none (some (1 / 2)) (some 10) 2 [[0, 0], [0, π]] = .ok res ∧
    res.z = 10 * (1 / 2) ^ 2 := by
  obtain ⟨res, h, -, hz, -⟩ := C30_rayleigh none none (1 / 2) 10 2 [[0, 0], [0, π]] (by norm_num)
    (by norm_num) (by norm_num) (by norm_num)
  exact ⟨res, h, by simpa using hz⟩

end Verif.Props
