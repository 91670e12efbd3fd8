import Verif.Model.HypUnif
import Verif.Lemmas.Dist
import Mathlib.Analysis.Real.Pi.Bounds

/-!
# C44: binomial test for the median direction
-/

namespace Verif.Props

open Real Spec

set_option autoImplicit false

/-- Number of observations less than a half turn clockwise of `md`. -/
noncomputable def countBefore (alpha : List ℝ) (md : ℝ) : ℕ := alpha.countP fun a => decide (sin (a - md) < 0)

/-- Number of observations less than a half turn counter-clockwise of `md`. -/
noncomputable def countAfter (alpha : List ℝ) (md : ℝ) : ℕ := alpha.countP fun a => decide (0 < sin (a - md))

/-- Number of observations in the direction exactly opposite to `md`. -/
noncomputable def countOpposite (alpha : List ℝ) (md : ℝ) : ℕ := alpha.countP fun a => decide (cos (a - md) = -1)

/-- Probability that a fair coin shows at most `k` heads in `n` throws. -/
noncomputable def fairTail (k n : ℕ) : ℝ := (∑ j ∈ Finset.range (k + 1), (n.choose j : ℝ)) / 2 ^ n

lemma centerDist_mem (a b : ℝ) : -π < centerDist a b ∧ centerDist a b ≤ π :=
  ⟨Complex.neg_pi_lt_arg _, Complex.arg_le_pi _⟩

lemma sin_center (a b : ℝ) : sin (centerDist a b) = sin (a - b) ∧ cos (centerDist a b) = cos (a - b) := by
  obtain ⟨k, hk⟩ := center_sameDir a b
  have : centerDist a b = (a - b) + k * (2 * π) := hk
  rw [this]; exact ⟨sin_add_int_mul_two_pi _ _, cos_add_int_mul_two_pi _ _⟩

lemma centerDist_neg_iff (a b : ℝ) : centerDist a b < 0 ↔ sin (a - b) < 0 := by
  rw [← (sin_center a b).1]
  obtain ⟨h1, h2⟩ := centerDist_mem a b
  constructor
  · exact fun h => sin_neg_of_neg_of_neg_pi_lt h h1
  · intro h
    by_contra hc
    exact absurd (sin_nonneg_of_nonneg_of_le_pi (not_lt.1 hc) h2) (not_le.2 h)

lemma centerDist_pos_iff (a b : ℝ) : 0 < centerDist a b ↔ 0 < sin (a - b) ∨ cos (a - b) = -1 := by
  rw [← (sin_center a b).1, ← (sin_center a b).2]
  obtain ⟨h1, h2⟩ := centerDist_mem a b
  constructor
  · intro h
    rcases h2.lt_or_eq with h3 | h3
    · left; exact sin_pos_of_pos_of_lt_pi h h3
    · right; rw [h3, cos_pi]
  · rintro (h | h)
    · by_contra hc
      exact absurd (sin_nonpos_of_nonpos_of_neg_pi_le (not_lt.1 hc) h1.le) (not_le.2 h)
    · by_contra hc
      rcases (not_lt.1 hc).lt_or_eq with h3 | h3
      · have : sin (centerDist a b) < 0 := sin_neg_of_neg_of_neg_pi_lt h3 h1
        have := sin_sq_add_cos_sq (centerDist a b)
        rw [h] at this
        nlinarith
      · rw [h3, cos_zero] at h; norm_num at h

lemma not_both (x : ℝ) (h : cos x = -1) : ¬ 0 < sin x := by
  intro h1
  have := sin_sq_add_cos_sq x
  rw [h] at this
  nlinarith

lemma n1_eq (alpha : List ℝ) (md : ℝ) :
    (alpha.countP fun a => decide (centerDist a md < 0)) = countBefore alpha md := by
  unfold countBefore
  congr 1; funext a; rw [decide_eq_decide]; exact centerDist_neg_iff a md

lemma n2_eq (alpha : List ℝ) (md : ℝ) :
    (alpha.countP fun a => decide (0 < centerDist a md)) = countAfter alpha md + countOpposite alpha md := by
  unfold countAfter countOpposite
  induction alpha with
  | nil => simp
  | cons a l ih =>
    rw [List.countP_cons, List.countP_cons, List.countP_cons, ih]
    simp only [decide_eq_true_eq, centerDist_pos_iff]
    by_cases h1 : 0 < sin (a - md) <;> by_cases h2 : cos (a - md) = -1
    · exact absurd h1 (not_both _ h2)
    · simp [h1, h2]; omega
    · simp [h1, h2]; omega
    · simp [h1, h2]

/-- **C44.** For a non-empty sample: `n1` counts the observations before the hypothesised median, `n2`
those after it together with those exactly opposite; observations equal to the median count nowhere.
The p value is twice the tail of a fair coin, at most 1; with no effective observation it is 1. -/
theorem C44_binomial (alpha : List ℝ) (md : ℝ) (hne : alpha ≠ []) :
    ∃ res, binomialTest alpha md = .ok res ∧
      res.n1 = countBefore alpha md ∧ res.n2 = countAfter alpha md + countOpposite alpha md ∧
      res.nEff = res.n1 + res.n2 ∧
      (res.nEff + alpha.countP (fun a => decide (cos (a - md) = 1)) = alpha.length) ∧
      (res.nEff = 0 → res.pval = 1) ∧
      (res.nEff ≠ 0 → res.pval = min (2 * fairTail (min res.n1 res.n2) res.nEff) 1) ∧
      0 < res.pval ∧ res.pval ≤ 1 := by
  have hl : alpha.length ≠ 0 := by simpa using hne
  have hcount : countBefore alpha md + (countAfter alpha md + countOpposite alpha md)
      + alpha.countP (fun a => decide (cos (a - md) = 1)) = alpha.length := by
    unfold countBefore countAfter countOpposite
    clear hne hl
    induction alpha with
    | nil => simp
    | cons a l ih =>
      simp only [List.countP_cons, List.length_cons, decide_eq_true_eq]
      have hsc := sin_sq_add_cos_sq (a - md)
      rcases lt_trichotomy (sin (a - md)) 0 with h | h | h
      · have c1 : cos (a - md) ≠ -1 := fun hc => by rw [hc] at hsc; nlinarith
        have c2 : cos (a - md) ≠ 1 := fun hc => by rw [hc] at hsc; nlinarith
        simp only [h, not_lt.2 h.le, c1, c2, if_true, if_false]; omega
      · rw [h] at hsc
        have : cos (a - md) = 1 ∨ cos (a - md) = -1 := by
          have : cos (a - md) ^ 2 = 1 := by linarith
          rcases mul_eq_zero.1 (show (cos (a - md) - 1) * (cos (a - md) + 1) = 0 by linarith [sq (cos (a - md))]) with h | h
          · left; linarith
          · right; linarith
        rcases this with hc | hc
        · simp only [h, hc, lt_irrefl, if_false, if_true]; norm_num; omega
        · simp only [h, hc, lt_irrefl, if_false, if_true]; norm_num; omega
      · have c1 : cos (a - md) ≠ -1 := fun hc => by rw [hc] at hsc; nlinarith
        have c2 : cos (a - md) ≠ 1 := fun hc => by rw [hc] at hsc; nlinarith
        simp only [h, not_lt.2 h.le, c1, c2, if_true, if_false]; omega
  unfold binomialTest
  rw [if_neg hl]
  simp only [n1_eq, n2_eq]
  split_ifs with h0
  · refine ⟨_, rfl, rfl, rfl, by simp [h0], by simp only; omega, fun _ => rfl, fun h => absurd rfl h, ?_, ?_⟩ <;> norm_num
  · refine ⟨_, rfl, rfl, rfl, rfl, hcount, fun h => absurd h h0, fun _ => rfl, ?_, min_le_right _ _⟩
    refine lt_min ?_ one_pos
    unfold binomCdfHalf
    have : (0 : ℝ) < ∑ j ∈ Finset.range (min (countBefore alpha md) (countAfter alpha md + countOpposite alpha md) + 1),
        ((countBefore alpha md + (countAfter alpha md + countOpposite alpha md)).choose j : ℝ) := by
      rw [Finset.sum_range_succ']
      have : (0 : ℝ) ≤ ∑ j ∈ Finset.range (min (countBefore alpha md) (countAfter alpha md + countOpposite alpha md)),
        ((countBefore alpha md + (countAfter alpha md + countOpposite alpha md)).choose (j + 1) : ℝ) := by positivity
      simp only [Nat.choose_zero_right, Nat.cast_one]; linarith
    positivity

lemma binomial_congr {alpha beta : List ℝ} {md md' : ℝ} (hl : alpha.length = beta.length)
    (h1 : countBefore alpha md = countBefore beta md')
    (h2 : countAfter alpha md + countOpposite alpha md = countAfter beta md' + countOpposite beta md') :
    binomialTest alpha md = binomialTest beta md' := by
  unfold binomialTest
  simp only [n1_eq, n2_eq, hl, h1, h2]

/-- Turning data and median together (by any amount, whole turns included), or reordering the data,
changes nothing. -/
theorem C44_binomial_rotate (alpha beta z : List ℝ) (md md' t : ℝ) (hmd : SameDir md' (md + t))
    (hz : List.Forall₂ (fun a b => SameDir b (a + t)) alpha z) (hp : z.Perm beta) :
    binomialTest beta md' = binomialTest alpha md := by
  have key : List.Forall₂ (fun a b => SameDir (b - md') (a - md)) alpha z :=
    hz.imp fun a b h => by
      have := CongMod.sub h hmd
      have e : a + t - (md + t) = a - md := by ring
      rwa [e] at this
  have hcong : ∀ (f : ℝ → Bool), (∀ x y, SameDir x y → f x = f y) →
      beta.countP (fun b => f (b - md')) = alpha.countP (fun a => f (a - md)) := by
    intro f hf
    rw [← hp.countP_eq]
    clear hz hp
    induction key with
    | nil => rfl
    | cons h _ ih => simp only [List.countP_cons, ih, hf _ _ h]
  have hs : ∀ x y, SameDir x y → sin x = sin y := by
    rintro x y ⟨k, rfl⟩; exact sin_add_int_mul_two_pi _ _
  have hc : ∀ x y, SameDir x y → cos x = cos y := by
    rintro x y ⟨k, rfl⟩; exact cos_add_int_mul_two_pi _ _
  refine binomial_congr (by rw [← hp.length_eq, hz.length_eq]) ?_ ?_
  · exact hcong (fun x => decide (sin x < 0)) fun x y h => by rw [hs x y h]
  · have h1 := hcong (fun x => decide (0 < sin x)) fun x y h => by rw [hs x y h]
    have h2 := hcong (fun x => decide (cos x = -1)) fun x y h => by rw [hc x y h]
    unfold countAfter countOpposite
    rw [h1, h2]

/-- Reflecting the data about the median exchanges the two counts and keeps the p value, provided no
observation lies exactly opposite to the median. -/
theorem C44_binomial_reflect (alpha : List ℝ) (md : ℝ) (hopp : ∀ a ∈ alpha, cos (a - md) ≠ -1)
    (res : BinomialResult) (h : binomialTest alpha md = .ok res) :
    binomialTest (alpha.map fun a => 2 * md - a) md = .ok ⟨res.pval, res.nEff, res.n2, res.n1⟩ := by
  have e : ∀ a, 2 * md - a - md = -(a - md) := fun a => by ring
  have h1 : countBefore (alpha.map fun a => 2 * md - a) md = countAfter alpha md := by
    unfold countBefore countAfter
    rw [List.countP_map]; congr 1; funext a
    simp only [Function.comp_apply, e, sin_neg, neg_lt_zero]
  have h2 : countAfter (alpha.map fun a => 2 * md - a) md = countBefore alpha md := by
    unfold countBefore countAfter
    rw [List.countP_map]; congr 1; funext a
    simp only [Function.comp_apply, e, sin_neg, neg_pos]
  have h3 : countOpposite alpha md = 0 := by
    unfold countOpposite
    rw [List.countP_eq_zero]; intro a ha; simp [hopp a ha]
  have h4 : countOpposite (alpha.map fun a => 2 * md - a) md = 0 := by
    unfold countOpposite
    rw [List.countP_eq_zero]; intro b hb
    obtain ⟨a, ha, rfl⟩ := List.mem_map.1 hb
    simp only [e, cos_neg]; simp [hopp a ha]
  unfold binomialTest at h ⊢
  simp only [n1_eq, n2_eq, h1, h2, h3, h4, add_zero, List.length_map] at h ⊢
  split_ifs at h with a b
  · rw [if_neg a, if_pos (by omega)]; cases h; rfl
  · rw [if_neg a, if_neg (by omega), min_comm (countAfter alpha md), add_comm (countAfter alpha md)]; cases h; rfl

/-- The reflection law fails when an observation lies exactly opposite to the median, because such an
observation always counts as "after": the sample `{π, π/2}` and its mirror image about 0 get different
p values. -/
theorem C44_reflect_fails_opposite :
    ∃ r r', binomialTest [π, π / 2] 0 = .ok r ∧ binomialTest [-π, -(π / 2)] 0 = .ok r' ∧
      r.pval = 1 / 2 ∧ r'.pval = 1 := by
  obtain ⟨r, h, a1, a2, a3, -, -, a4, -⟩ := C44_binomial [π, π / 2] 0 (by simp)
  obtain ⟨r', h', b1, b2, b3, -, -, b4, -⟩ := C44_binomial [-π, -(π / 2)] 0 (by simp)
  refine ⟨r, r', h, h', ?_, ?_⟩
  · have e1 : r.n1 = 0 := by
      rw [a1]; unfold countBefore; simp [sin_pi, sin_pi_div_two]
    have e2 : r.n2 = 2 := by
      rw [a2]; unfold countAfter countOpposite
      simp [sin_pi, sin_pi_div_two]
    rw [a4 (by omega), a3, e1, e2]
    unfold fairTail
    norm_num
  · have e1 : r'.n1 = 1 := by
      rw [b1]; unfold countBefore; simp [sin_pi, sin_pi_div_two]
    have e2 : r'.n2 = 1 := by
      rw [b2]; unfold countAfter countOpposite
      simp [sin_pi, sin_pi_div_two]
    rw [b4 (by omega), b3, e1, e2]
    unfold fairTail
    norm_num [Finset.sum_range_succ]

/-- The more evenly the same number of effective observations is split, the larger the p value. -/
theorem C44_binomial_monotone (alpha beta : List ℝ) (md md' : ℝ) (r r' : BinomialResult)
    (h : binomialTest alpha md = .ok r) (h' : binomialTest beta md' = .ok r') (hn : r.nEff = r'.nEff)
    (hm : min r.n1 r.n2 ≤ min r'.n1 r'.n2) : r.pval ≤ r'.pval := by
  have hne : ∀ l : List ℝ, ∀ m q, binomialTest l m = .ok q → l ≠ [] := by
    rintro l m q hq rfl; simp [binomialTest] at hq
  obtain ⟨s, hs, -, -, -, -, a1, a2, -⟩ := C44_binomial alpha md (hne _ _ _ h)
  obtain ⟨s', hs', -, -, -, -, b1, b2, -⟩ := C44_binomial beta md' (hne _ _ _ h')
  rw [h] at hs; rw [h'] at hs'
  cases hs; cases hs'
  by_cases h0 : r.nEff = 0
  · rw [a1 h0, b1 (by omega)]
  · rw [a2 h0, b2 (by omega), ← hn]
    refine min_le_min_right _ ?_
    unfold fairTail
    have : (∑ j ∈ Finset.range (min r.n1 r.n2 + 1), (r.nEff.choose j : ℝ))
        ≤ ∑ j ∈ Finset.range (min r'.n1 r'.n2 + 1), (r.nEff.choose j : ℝ) :=
      Finset.sum_le_sum_of_subset_of_nonneg (fun j hj => by simp at hj ⊢; omega) fun j _ _ => by positivity
    have := div_le_div_of_nonneg_right this (by positivity : (0 : ℝ) ≤ 2 ^ r.nEff)
    linarith

/-- The empty sample is refused. -/
theorem C44_binomial_refused (md : ℝ) : binomialTest [] md = .error .valueError := by
  simp [binomialTest]

end Verif.Props
