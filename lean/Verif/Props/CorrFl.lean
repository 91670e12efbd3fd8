import Verif.Lemmas.FinSums
import Verif.Lemmas.Descriptive
import Verif.Lemmas.Groups
import Mathlib.Algebra.Order.BigOperators.Ring.Finset

/-! # C51: Fisher-Lee circular-circular correlation (`circ_corrcc(method="fl")`) -/

set_option autoImplicit false

namespace Verif.Props

open Real Verif Verif.Spec

/-- Specification: the sum over all unordered pairs of observations of
`sin (aᵢ - aⱼ) · sin (bᵢ - bⱼ)`. -/
noncomputable def pairCov {n : ℕ} (a b : Fin n → ℝ) : ℝ :=
  (∑ i, ∑ j, sin (a i - a j) * sin (b i - b j)) / 2

/-- Specification: Fisher and Lee's coefficient. -/
noncomputable def fisherLee {n : ℕ} (a b : Fin n → ℝ) : ℝ :=
  pairCov a b / sqrt (pairCov a a * pairCov b b)

/-- The data are refused when this scale is at most `1e-8`. -/
noncomputable def flScale {n : ℕ} (a b : Fin n → ℝ) : ℝ := sqrt (pairCov a a * pairCov b b)

private lemma flCorr_eq {n : ℕ} (a b : Fin n → ℝ) :
    flCorr (List.ofFn a) (List.ofFn b) =
      if flScale a b ≤ 1 / 10 ^ 8 then .error .valueError else .ok (fisherLee a b) := by
  have hsq : ∀ l : List ℝ, (l.map fun x => x ^ 2).sum = (List.zipWith (fun x y => x * y) l l).sum := by
    intro l
    rw [List.zipWith_self]
    simp only [pow_two]
  unfold flCorr
  simp only [hsq, pairDiffs_sum]
  simp only [isclose_zero _ _ _ (sqrt_nonneg _), atolDefault]
  rfl

private lemma pairCov_comm {n : ℕ} (a b : Fin n → ℝ) : pairCov b a = pairCov a b := by
  unfold pairCov
  simp only [mul_comm]

private lemma pairCov_self_nonneg {n : ℕ} (a : Fin n → ℝ) : 0 ≤ pairCov a a := by
  unfold pairCov
  refine div_nonneg (Finset.sum_nonneg fun i _ => Finset.sum_nonneg fun j _ => mul_self_nonneg _) (by norm_num)

private lemma sq_le {n : ℕ} (a b : Fin n → ℝ) : pairCov a b ^ 2 ≤ pairCov a a * pairCov b b := by
  unfold pairCov
  have := Finset.sum_mul_sq_le_sq_mul_sq (Finset.univ : Finset (Fin n × Fin n))
    (fun p => sin (a p.1 - a p.2)) (fun p => sin (b p.1 - b p.2))
  simp only [pow_two, Fintype.sum_prod_type] at this ⊢
  linarith

/-- With at least two pairs and a non-degenerate scale `circ_corrcc(a, b)` is Fisher and Lee's
coefficient. -/
theorem C51_value {n : ℕ} (a b : Fin n → ℝ) (pa pb : Option ℝ) (strict : Bool) (z : ℝ) (cdf : ℝ → ℝ)
    (hn : 2 ≤ n) (hs : 1 / 10 ^ 8 < flScale a b) :
    ∃ res, circCorrcc (List.ofFn a) (List.ofFn b) pa pb "fl" false strict z cdf = .ok res ∧
      res.r = some (fisherLee a b) := by
  unfold circCorrcc corrFl
  rw [if_pos rfl, if_neg (by simp), if_neg (by simp; omega), flCorr_eq, if_neg (not_le.2 hs)]
  exact ⟨_, rfl, rfl⟩

/-- Without the test a `ValueError` is raised exactly for samples of different or too small sizes and
for a degenerate scale. -/
theorem C51_refused {m n : ℕ} (a : Fin m → ℝ) (b : Fin n → ℝ) (pa pb : Option ℝ) (strict : Bool) (z : ℝ)
    (cdf : ℝ → ℝ) :
    circCorrcc (List.ofFn a) (List.ofFn b) pa pb "fl" false strict z cdf = .error .valueError ↔
      m ≠ n ∨ n < 2 ∨ ∃ h : m = n, flScale (h ▸ a) b ≤ 1 / 10 ^ 8 := by
  by_cases hmn : m = n
  · subst hmn
    by_cases hn : m < 2
    · unfold circCorrcc corrFl
      simp [hn]
    by_cases hs : flScale a b ≤ 1 / 10 ^ 8
    · unfold circCorrcc corrFl
      rw [if_pos rfl, if_neg (by simp), if_neg (by simp; omega), flCorr_eq, if_pos hs]
      simp only [ne_eq, not_true_eq_false, hn, false_or, exists_true_left, hs, iff_true]
      rfl
    · obtain ⟨res, h, -⟩ := C51_value a b pa pb strict z cdf (by omega) (by push Not at hs; exact hs)
      rw [h]
      simp only [reduceCtorEq, ne_eq, not_true_eq_false, hn, false_or, exists_true_left, hs]
  · unfold circCorrcc corrFl
    simp [hmn]

/-- The coefficient is in `[-1, 1]`; it is 1 when the two samples are the same. -/
theorem C51_range {n : ℕ} (a b : Fin n → ℝ) : |fisherLee a b| ≤ 1 := by
  unfold fisherLee
  rw [abs_div, abs_of_nonneg (sqrt_nonneg _)]
  refine div_le_one_of_le₀ ?_ (sqrt_nonneg _)
  exact abs_le_sqrt (sq_le a b)

/-- A coefficient of 1 means exactly that the sines of all pairwise differences are proportional. -/
theorem C51_one_iff {n : ℕ} (a b : Fin n → ℝ) (hs : 0 < flScale a b) :
    fisherLee a b = 1 ↔ ∃ c > 0, ∀ i j, sin (a i - a j) = c * sin (b i - b j) := by
  have hA := pairCov_self_nonneg a
  have hB := pairCov_self_nonneg b
  have hAB : 0 < pairCov a a * pairCov b b := sqrt_pos.1 hs
  have hA' : 0 < pairCov a a := lt_of_le_of_ne hA (fun h => by rw [← h] at hAB; simp at hAB)
  have hB' : 0 < pairCov b b := lt_of_le_of_ne hB (fun h => by rw [← h] at hAB; simp at hAB)
  constructor
  · intro h
    have hc : pairCov a b = sqrt (pairCov a a * pairCov b b) := by
      unfold fisherLee at h
      rwa [div_eq_one_iff_eq (sqrt_pos.2 hAB).ne'] at h
    have hsq : pairCov a b ^ 2 = pairCov a a * pairCov b b := by rw [hc, sq_sqrt hAB.le]
    have hcp : 0 < pairCov a b := hc ▸ hs
    refine ⟨pairCov a b / pairCov b b, by positivity, ?_⟩
    set c := pairCov a b / pairCov b b with hcdef
    have key : ∑ i, ∑ j, (sin (a i - a j) - c * sin (b i - b j)) ^ 2 = 0 := by
      have e : ∑ i, ∑ j, (sin (a i - a j) - c * sin (b i - b j)) ^ 2
          = 2 * pairCov a a - 2 * c * (2 * pairCov a b) + c ^ 2 * (2 * pairCov b b) := by
        unfold pairCov
        simp only [mul_div_cancel₀ _ (two_ne_zero' ℝ), Finset.mul_sum, ← Finset.sum_add_distrib,
          ← Finset.sum_sub_distrib]
        refine Finset.sum_congr rfl fun i _ => Finset.sum_congr rfl fun j _ => ?_
        ring
      rw [e, hcdef]
      field_simp
      linear_combination (-2) * hsq
    intro i j
    rw [Finset.sum_eq_zero_iff_of_nonneg (fun i _ => Finset.sum_nonneg fun j _ => sq_nonneg _)] at key
    have k2 := key i (Finset.mem_univ i)
    rw [Finset.sum_eq_zero_iff_of_nonneg (fun j _ => sq_nonneg _)] at k2
    have k3 := k2 j (Finset.mem_univ j)
    exact sub_eq_zero.1 (pow_eq_zero_iff two_ne_zero |>.1 k3)
  · rintro ⟨c, hc, h⟩
    have e1 : pairCov a b = c * pairCov b b := by
      unfold pairCov
      simp only [h, mul_assoc, ← Finset.mul_sum]
      ring
    have e2 : pairCov a a = c ^ 2 * pairCov b b := by
      unfold pairCov
      simp only [h, mul_mul_mul_comm, ← Finset.mul_sum]
      ring
    unfold fisherLee
    rw [e1, e2, show c ^ 2 * pairCov b b * pairCov b b = (c * pairCov b b) ^ 2 by ring,
      sqrt_sq (by positivity), div_self (by positivity)]

/-- A sample is perfectly correlated with itself. -/
theorem C51_self {n : ℕ} (a : Fin n → ℝ) (hs : 0 < flScale a a) : fisherLee a a = 1 :=
  (C51_one_iff a a hs).2 ⟨1, one_pos, fun _ _ => (one_mul _).symm⟩

private lemma flCorr_comm (a b : List ℝ) : flCorr b a = flCorr a b := by
  unfold flCorr
  simp only [mul_comm]
  rw [List.zipWith_comm]
  simp only [mul_comm]

/-- Exchanging the variables changes nothing, with or without the test. -/
theorem C51_symm (a b : List ℝ) (pa pb : Option ℝ) (test strict : Bool) (z : ℝ) (cdf : ℝ → ℝ) :
    circCorrcc b a pb pa "fl" test strict z cdf = circCorrcc a b pa pb "fl" test strict z cdf := by
  unfold circCorrcc corrFl
  by_cases h : a.length = b.length
  · rw [if_pos rfl, if_pos rfl, if_neg (not_not.2 h.symm), if_neg (not_not.2 h), flCorr_comm, h]
    simp only [flCorr_comm]
  · simp [h, Ne.symm h]

private lemma mapM_range_congr {β : Type} {n : ℕ} {f g : ℕ → Except PyErr β} (h : ∀ i < n, f i = g i) :
    (List.range n).mapM f = (List.range n).mapM g := by
  have : ∀ l : List ℕ, (∀ i ∈ l, f i = g i) → l.mapM f = l.mapM g := by
    intro l
    induction l with
    | nil => intro _; rfl
    | cons x l ih =>
      intro hl
      rw [List.mapM_cons, List.mapM_cons, hl x (by simp), ih fun i hi => hl i (by simp [hi])]
  exact this _ fun i hi => h i (List.mem_range.1 hi)

private lemma flCorr_congr {n : ℕ} {a b a' b' : Fin n → ℝ}
    (ha : ∀ i j, sin (a' i - a' j) = sin (a i - a j)) (hb : ∀ i j, sin (b' i - b' j) = sin (b i - b j)) :
    flCorr (List.ofFn a') (List.ofFn b') = flCorr (List.ofFn a) (List.ofFn b) := by
  have e1 : pairCov a' b' = pairCov a b := by simp only [pairCov, ha, hb]
  have e2 : pairCov a' a' = pairCov a a := by simp only [pairCov, ha]
  have e3 : pairCov b' b' = pairCov b b := by simp only [pairCov, hb]
  rw [flCorr_eq, flCorr_eq, flScale, flScale, fisherLee, fisherLee, e1, e2, e3]

private lemma sin_diff_of_rot {n : ℕ} {a a' : Fin n → ℝ} {s : ℝ} (h : ∀ i, SameDir (a' i) (a i + s)) (i j : Fin n) :
    sin (a' i - a' j) = sin (a i - a j) := by
  have h2 : SameDir (a' i - a' j) (a i - a j) := by
    have := (h i).sub (h j)
    rwa [add_sub_add_right_eq_sub] at this
  exact sin_eq_of_sameDir h2

/-- Turning either variable (by its own angle, whole turns ignored) changes nothing, with or without
the test. -/
theorem C51_rotate {n : ℕ} (a b a' b' : Fin n → ℝ) (s t : ℝ) (ha : ∀ i, SameDir (a' i) (a i + s))
    (hb : ∀ i, SameDir (b' i) (b i + t)) (pa pb : Option ℝ) (test strict : Bool) (z : ℝ) (cdf : ℝ → ℝ) :
    circCorrcc (List.ofFn a') (List.ofFn b') pa pb "fl" test strict z cdf
      = circCorrcc (List.ofFn a) (List.ofFn b) pa pb "fl" test strict z cdf := by
  unfold circCorrcc
  rw [if_pos rfl, if_pos rfl]
  unfold corrFl
  rw [flCorr_congr (sin_diff_of_rot ha) (sin_diff_of_rot hb)]
  simp only [List.length_ofFn]
  rcases n with _ | n
  · simp
  rw [mapM_range_congr (g := fun i => flCorr ((List.ofFn a).eraseIdx i) ((List.ofFn b).eraseIdx i))]
  intro i hi
  rw [eraseIdx_ofFn a' ⟨i, hi⟩, eraseIdx_ofFn b' ⟨i, hi⟩, eraseIdx_ofFn a ⟨i, hi⟩, eraseIdx_ofFn b ⟨i, hi⟩]
  exact flCorr_congr (fun _ _ => sin_diff_of_rot ha _ _) (fun _ _ => sin_diff_of_rot hb _ _)

/-- The order in which the pairs are listed does not matter. -/
theorem C51_perm {n : ℕ} (a b : Fin n → ℝ) (σ : Equiv.Perm (Fin n)) (pa pb : Option ℝ) (strict : Bool) (z : ℝ)
    (cdf : ℝ → ℝ) :
    circCorrcc (List.ofFn fun i => a (σ i)) (List.ofFn fun i => b (σ i)) pa pb "fl" false strict z cdf
      = circCorrcc (List.ofFn a) (List.ofFn b) pa pb "fl" false strict z cdf := by
  have key : ∀ u v : Fin n → ℝ, pairCov (fun i => u (σ i)) (fun i => v (σ i)) = pairCov u v := by
    intro u v
    unfold pairCov
    rw [← Equiv.sum_comp σ fun i => ∑ j, sin (u i - u j) * sin (v i - v j)]
    congr 1
    refine Finset.sum_congr rfl fun i _ => ?_
    rw [← Equiv.sum_comp σ fun j => sin (u (σ i) - u j) * sin (v (σ i) - v j)]
  unfold circCorrcc
  rw [if_pos rfl, if_pos rfl]
  unfold corrFl
  rw [flCorr_eq, flCorr_eq, flScale, flScale, fisherLee, fisherLee, key, key, key]
  simp only [List.length_ofFn, Bool.false_eq_true, if_false]

/-- Reflecting one variable changes the sign of the coefficient. -/
theorem C51_reflect {n : ℕ} (a b : Fin n → ℝ) :
    fisherLee (fun i => -a i) b = -fisherLee a b ∧ flScale (fun i => -a i) b = flScale a b := by
  have h : ∀ i j, sin (-a i - -a j) = -sin (a i - a j) := by
    intro i j; rw [← sin_neg]; congr 1; ring
  have e : pairCov (fun i => -a i) b = -pairCov a b := by
    unfold pairCov
    simp only [h, neg_mul, Finset.sum_neg_distrib, neg_div]
  have e' : pairCov (fun i => -a i) (fun i => -a i) = pairCov a a := by
    unfold pairCov
    simp only [h, neg_mul_neg]
  unfold fisherLee flScale
  rw [e, e', neg_div]
  exact ⟨rfl, rfl⟩

/-- The test: with `rᵢ` the coefficient without pair `i`, `m` and `s²` the mean and the variance (divisor
`n - 1`) of the `rᵢ`, independence is rejected exactly when 0 is outside
`n r - (n - 1) m ± z √(s² / n)`. -/
theorem C51_test {n : ℕ} (a b : Fin (n + 1) → ℝ) (pa pb : Option ℝ) (strict : Bool) (z : ℝ) (cdf : ℝ → ℝ)
    (hn : 1 ≤ n) (hs : 1 / 10 ^ 8 < flScale a b)
    (hi : ∀ i : Fin (n + 1), 1 / 10 ^ 8 < flScale (fun j => a (i.succAbove j)) (fun j => b (i.succAbove j))) :
    ∃ res, circCorrcc (List.ofFn a) (List.ofFn b) pa pb "fl" true strict z cdf = .ok res ∧
      res.r = some (fisherLee a b) ∧
      let r : Fin (n + 1) → ℝ := fun i => fisherLee (fun j => a (i.succAbove j)) (fun j => b (i.succAbove j))
      let m := (∑ i, r i) / (n + 1)
      let c := (n + 1) * fisherLee a b - n * m
      let w := z * sqrt ((∑ i, (r i - m) ^ 2) / n / (n + 1))
      ∃ rej, res.reject = some rej ∧ (rej = true ↔ 0 < c - w ∨ c + w < 0) := by
  have hm : (List.range (n + 1)).mapM (fun i => flCorr ((List.ofFn a).eraseIdx i) ((List.ofFn b).eraseIdx i))
      = .ok (List.ofFn fun i : Fin (n + 1) =>
          fisherLee (fun j => a (i.succAbove j)) (fun j => b (i.succAbove j))) := by
    have hr : List.range (n + 1) = List.ofFn (fun i : Fin (n + 1) => (i : ℕ)) := by
      rw [List.ofFn_eq_map, ← List.map_coe_finRange_eq_range]
    rw [hr]
    have aux : ∀ l : List (Fin (n + 1)), (l.map fun i : Fin (n + 1) => (i : ℕ)).mapM
        (fun i => flCorr ((List.ofFn a).eraseIdx i) ((List.ofFn b).eraseIdx i))
        = .ok (l.map fun i => fisherLee (fun j => a (i.succAbove j)) (fun j => b (i.succAbove j))) := by
      intro l
      induction l with
      | nil => rfl
      | cons i l ih =>
        rw [List.map_cons, List.mapM_cons, ih, eraseIdx_ofFn a i, eraseIdx_ofFn b i, flCorr_eq,
          if_neg (not_le.2 (hi i))]
        rfl
    rw [show (List.ofFn fun i : Fin (n + 1) => (i : ℕ)) = List.map (fun i : Fin (n + 1) => (i : ℕ)) (List.finRange (n + 1)) from
      List.ofFn_eq_map, aux, ← List.ofFn_eq_map]
  have hn0 : ((n + 1 : ℕ) : ℝ) ≠ 0 := by positivity
  have hn1 : (n : ℝ) ≠ 0 := by positivity
  unfold circCorrcc corrFl
  rw [if_pos rfl, if_neg (by simp), if_neg (by simp; omega), flCorr_eq, if_neg (not_le.2 hs)]
  simp only [List.length_ofFn, hm, Except.bind, if_true, Except.map]
  refine ⟨_, rfl, rfl, _, rfl, ?_⟩
  have hmean : ∀ r : Fin (n + 1) → ℝ, mean (List.ofFn r) = some ((∑ i, r i) / (n + 1)) := by
    intro r
    unfold mean
    rw [List.length_ofFn, List.sum_ofFn, show pydiv (∑ i, r i) ((n + 1 : ℕ) : ℝ) = some _ from if_neg hn0]
    push_cast
    rfl
  have hcov : ∀ r : Fin (n + 1) → ℝ, cov1 (List.ofFn r) (List.ofFn r)
      = some ((∑ i, (r i - (∑ i, r i) / (n + 1)) ^ 2 : ℝ) / n) := by
    intro r
    unfold cov1
    rw [hmean, Option.bind_some, Option.bind_some, zipWith_ofFn, List.sum_ofFn, List.length_ofFn]
    have : ((n + 1 : ℕ) : ℝ) - 1 = n := by push_cast; ring
    rw [this, show pydiv _ (n : ℝ) = some _ from if_neg hn1]
    simp only [pow_two]
  unfold flReject
  simp only [hmean, hcov]
  push_cast
  rw [add_sub_cancel_right]
  simp only [Bool.not_eq_true', Bool.and_eq_false_iff, decide_eq_false_iff_not, not_le]

/-- With two pairs the test is never available. -/
theorem C51_test_two (a b : Fin 2 → ℝ) (pa pb : Option ℝ) (strict : Bool) (z : ℝ) (cdf : ℝ → ℝ) :
    circCorrcc (List.ofFn a) (List.ofFn b) pa pb "fl" true strict z cdf = .error .valueError := by
  have h0 : flCorr ((List.ofFn a).eraseIdx 0) ((List.ofFn b).eraseIdx 0) = .error .valueError := by
    rw [show (List.ofFn a).eraseIdx 0 = _ from eraseIdx_ofFn a 0,
      show (List.ofFn b).eraseIdx 0 = _ from eraseIdx_ofFn b 0, flCorr_eq, if_pos]
    simp [flScale, pairCov]
  unfold circCorrcc corrFl
  rw [if_pos rfl, if_neg (by simp), if_neg (by simp), flCorr_eq]
  by_cases hs : flScale a b ≤ 1 / 10 ^ 8
  · rw [if_pos hs]; rfl
  · rw [if_neg hs]
    simp only [List.length_ofFn, Except.bind, if_true, show List.range 2 = [0, 1] from rfl, List.mapM_cons, h0]
    rfl

/-- Three directions an eighth of a turn apart: all scales are non-degenerate, also without one pair. -/
example : 1 / 10 ^ 8 < flScale ![0, π / 2, π / 4] ![0, π / 2, π / 4] ∧
    fisherLee ![0, π / 2, π / 4] ![0, π / 2, π / 4] = 1 ∧
    ∀ i : Fin 3, 1 / 10 ^ 8 < flScale (fun j => ![0, π / 2, π / 4] (i.succAbove j))
      (fun j => ![0, π / 2, π / 4] (i.succAbove j)) := by
  have h4 : (√2 / 2) ^ 2 = (1 / 2 : ℝ) := by rw [div_pow, sq_sqrt (by norm_num)]; norm_num
  have hself : ∀ {n : ℕ} (a : Fin n → ℝ), flScale a a = pairCov a a := by
    intro n a
    unfold flScale
    rw [sqrt_mul_self (pairCov_self_nonneg a)]
  have e24 : π / 2 - π / 4 = π / 4 := by ring
  have e42 : π / 4 - π / 2 = -(π / 4) := by ring
  have e1 : pairCov ![0, π / 2, π / 4] ![0, π / 2, π / 4] = 2 := by
    simp [pairCov, Fin.sum_univ_three, e24, e42, ← pow_two]
    rw [h4]
    norm_num
  refine ⟨by rw [hself, e1]; norm_num, C51_self _ (by rw [hself, e1]; norm_num), ?_⟩
  intro i
  rw [hself]
  fin_cases i
  · simp [pairCov, Fin.sum_univ_two, e24, e42, ← pow_two, Fin.succAbove]
    rw [h4]
    norm_num
  · simp [pairCov, Fin.sum_univ_two, ← pow_two, Fin.succAbove]
    rw [h4]
    norm_num
  · simp [pairCov, Fin.sum_univ_two, ← pow_two, Fin.succAbove]
    norm_num

end Verif.Props
