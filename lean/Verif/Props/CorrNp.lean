import Verif.Lemmas.MeanDir
import Mathlib.Algebra.Ring.GeomSum
import Mathlib.RingTheory.RootsOfUnity.Complex

/-! # C53: rank circular correlation (`circ_corrcc(method="nonparametric")`) -/

set_option autoImplicit false

namespace Verif.Props

open Real Verif Verif.Spec

open Classical in
/-- Specification: the rank of observation `i`, ties sharing the average of their ranks. -/
noncomputable def avgRank {n : ℕ} (a : Fin n → ℝ) (i : Fin n) : ℝ :=
  (Finset.univ.filter fun j => a j < a i).card + (((Finset.univ.filter fun j => a j = a i).card : ℝ) + 1) / 2

/-- Specification: the squared length of the mean vector of the angles `2π xᵢ / n`. -/
noncomputable def meanSq {n : ℕ} (x : Fin n → ℝ) : ℝ :=
  ‖(∑ i, Complex.exp (((2 * π / n * x i : ℝ) : ℂ) * Complex.I)) / n‖ ^ 2

/-- Specification: the rank correlation coefficient. -/
noncomputable def rankCorr {n : ℕ} (a b : Fin n → ℝ) : ℝ :=
  meanSq (fun i => avgRank a i - avgRank b i) - meanSq (fun i => avgRank a i + avgRank b i)

open Classical in
private lemma avgRank_eq {n : ℕ} (a : Fin n → ℝ) (i : Fin n) :
    avgRank a i = ∑ j, (if a j < a i then (1 : ℝ) else 0) + ((∑ j, if a j = a i then (1 : ℝ) else 0) + 1) / 2 := by
  unfold avgRank
  rw [Finset.card_filter, Finset.card_filter]
  push_cast
  rfl

private lemma countP_ofFn {α : Type} (p : α → Bool) : ∀ {n : ℕ} (a : Fin n → α),
    (((List.ofFn a).countP p : ℕ) : ℝ) = ∑ j, if p (a j) then (1 : ℝ) else 0
  | 0, a => by simp
  | n + 1, a => by
    rw [List.ofFn_succ, List.countP_cons, Fin.sum_univ_succ, ← countP_ofFn p fun j => a j.succ]
    push_cast
    ring

private lemma rankAvg_ofFn {n : ℕ} (a : Fin n → ℝ) : rankAvg (List.ofFn a) = List.ofFn (avgRank a) := by
  unfold rankAvg
  rw [List.map_ofFn]
  congr 1
  funext i
  simp only [Function.comp, avgRank_eq, countP_ofFn, List.count, decide_eq_true_eq, beq_iff_eq]

private lemma meanSq_eq {n : ℕ} (x : Fin n → ℝ) :
    meanSq x = ((∑ i, cos (2 * π / n * x i)) ^ 2 + (∑ i, sin (2 * π / n * x i)) ^ 2) / (n : ℝ) ^ 2 := by
  unfold meanSq
  rw [norm_div, Complex.norm_natCast, div_pow]
  congr 1
  rw [Complex.sq_norm, Complex.normSq_apply, Complex.re_sum, Complex.im_sum]
  simp only [Complex.exp_ofReal_mul_I_re, Complex.exp_ofReal_mul_I_im]
  ring

/-- With three or more pairs the coefficient is the difference of the squared mean vector lengths of
the rank differences and of the rank sums; independence is rejected when `(n - 1) r` exceeds
`2.99 + 2.16 / n`. -/
theorem C53_value {n : ℕ} (a b : Fin n → ℝ) (pa pb : Option ℝ) (test strict : Bool) (z : ℝ) (cdf : ℝ → ℝ)
    (hn : 3 ≤ n) :
    ∃ res rej, circCorrcc (List.ofFn a) (List.ofFn b) pa pb "nonparametric" test strict z cdf = .ok res ∧
      res.r = some (rankCorr a b) ∧ res.reject = some rej ∧
      (rej = true ↔ 2.99 + 2.16 / (n : ℝ) < ((n : ℝ) - 1) * rankCorr a b) := by
  unfold circCorrcc corrNp
  rw [if_neg (by decide), if_neg (by decide), if_pos rfl, if_neg (by simp), if_neg (by simp; omega)]
  simp only [List.length_ofFn, rankAvg_ofFn, zipWith_ofFn, sum_map_ofFn]
  refine ⟨_, _, rfl, ?_, rfl, ?_⟩
  · simp only [rankCorr, meanSq_eq]
  · simp only [rankCorr, meanSq_eq, decide_eq_true_eq, gt_iff_lt]

/-- A `ValueError` is raised exactly for samples of different or too small sizes. -/
theorem C53_refused {m n : ℕ} (a : Fin m → ℝ) (b : Fin n → ℝ) (pa pb : Option ℝ) (test strict : Bool) (z : ℝ)
    (cdf : ℝ → ℝ) :
    circCorrcc (List.ofFn a) (List.ofFn b) pa pb "nonparametric" test strict z cdf = .error .valueError ↔
      m ≠ n ∨ n < 3 := by
  by_cases hmn : m = n
  · subst hmn
    by_cases h : m < 3
    · unfold circCorrcc corrNp
      simp [h]
    · obtain ⟨res, rej, h', -⟩ := C53_value a b pa pb test strict z cdf (by omega)
      rw [h']; simp [h]
  · unfold circCorrcc corrNp
    simp [hmn]

private lemma meanSq_range {n : ℕ} (x : Fin n → ℝ) : 0 ≤ meanSq x ∧ meanSq x ≤ 1 := by
  refine ⟨sq_nonneg _, ?_⟩
  unfold meanSq
  refine pow_le_one₀ (norm_nonneg _) ?_
  rw [norm_div, Complex.norm_natCast]
  refine div_le_one_of_le₀ ?_ (by positivity)
  refine (norm_sum_le _ _).trans ?_
  simp only [Complex.norm_exp_ofReal_mul_I]
  simp

/-- The coefficient is in `[-1, 1]`. -/
theorem C53_range {n : ℕ} (a b : Fin n → ℝ) : |rankCorr a b| ≤ 1 := by
  unfold rankCorr
  have h1 := meanSq_range fun i => avgRank a i - avgRank b i
  have h2 := meanSq_range fun i => avgRank a i + avgRank b i
  rw [abs_le]
  constructor <;> linarith

private lemma meanSq_neg {n : ℕ} (x : Fin n → ℝ) : meanSq (fun i => -x i) = meanSq x := by
  rw [meanSq_eq, meanSq_eq]
  simp only [mul_neg, cos_neg, sin_neg, Finset.sum_neg_distrib, neg_sq]

private lemma meanSq_add {n : ℕ} (x : Fin n → ℝ) (c : ℝ) (k : Fin n → ℤ) (hn : n ≠ 0) :
    meanSq (fun i => x i + c - n * k i) = meanSq x := by
  have hn' : (n : ℝ) ≠ 0 := by exact_mod_cast hn
  unfold meanSq
  have : ∀ i, Complex.exp (((2 * π / n * (x i + c - n * k i) : ℝ) : ℂ) * Complex.I)
      = Complex.exp (((2 * π / n * c : ℝ) : ℂ) * Complex.I) * Complex.exp (((2 * π / n * x i : ℝ) : ℂ) * Complex.I) := by
    intro i
    have hd : SameDir (2 * π / n * (x i + c - n * k i)) (2 * π / n * c + 2 * π / n * x i) := by
      refine ⟨-k i, ?_⟩
      push_cast
      field_simp
      ring
    rw [(exp_eq_iff_sameDir _ _).2 hd, ← Complex.exp_add]
    push_cast
    rw [add_mul]
  simp only [this, ← Finset.mul_sum]
  rw [mul_div_assoc, norm_mul, Complex.norm_exp_ofReal_mul_I, one_mul]

/-- Exchanging the variables keeps the coefficient. -/
theorem C53_symm {n : ℕ} (a b : Fin n → ℝ) : rankCorr b a = rankCorr a b := by
  unfold rankCorr
  congr 1
  · rw [← meanSq_neg]; simp only [neg_sub]
  · simp only [add_comm]

private lemma eq_iff_of_lt_iff {n : ℕ} {a a' : Fin n → ℝ} (h : ∀ i j, a' i < a' j ↔ a i < a j) (i j : Fin n) :
    a' i = a' j ↔ a i = a j := by
  constructor
  · intro e
    refine le_antisymm (not_lt.1 fun hc => ?_) (not_lt.1 fun hc => ?_)
    · exact absurd e ((h j i).2 hc).ne'
    · exact absurd e ((h i j).2 hc).ne
  · intro e
    refine le_antisymm (not_lt.1 fun hc => ?_) (not_lt.1 fun hc => ?_)
    · exact absurd e ((h j i).1 hc).ne'
    · exact absurd e ((h i j).1 hc).ne

/-- Only the order of the observations matters: any strictly increasing transformation of either
variable keeps the coefficient. -/
theorem C53_order {n : ℕ} (a b a' b' : Fin n → ℝ) (ha : ∀ i j, a' i < a' j ↔ a i < a j)
    (hb : ∀ i j, b' i < b' j ↔ b i < b j) : rankCorr a' b' = rankCorr a b := by
  have key : ∀ {u u' : Fin n → ℝ}, (∀ i j, u' i < u' j ↔ u i < u j) → avgRank u' = avgRank u := by
    intro u u' h
    funext i
    simp only [avgRank_eq, h, eq_iff_of_lt_iff h]
  unfold rankCorr
  rw [key ha, key hb]

private lemma avgRank_reverse {n : ℕ} {a a' : Fin n → ℝ} (h : ∀ i j, a' i < a' j ↔ a j < a i) (i : Fin n) :
    avgRank a' i = n + 1 - avgRank a i := by
  classical
  have heq : ∀ i j, a' i = a' j ↔ a i = a j := by
    intro i j
    have := eq_iff_of_lt_iff (a := fun i => -a i) (a' := a') (fun i j => by rw [h, neg_lt_neg_iff]) i j
    rw [this, neg_inj]
  have e : ∀ j, (if a' j < a' i then (1 : ℝ) else 0)
      = 1 - (if a j < a i then 1 else 0) - (if a j = a i then 1 else 0) := by
    intro j
    simp only [h]
    rcases lt_trichotomy (a j) (a i) with hc | hc | hc
    · simp [hc, hc.ne, not_lt.2 hc.le]
    · simp [hc]
    · simp [hc, hc.ne', not_lt.2 hc.le]
  rw [avgRank_eq, avgRank_eq]
  simp only [e, heq, Finset.sum_sub_distrib]
  rw [Finset.sum_const, Finset.card_univ, Fintype.card_fin, nsmul_eq_mul, mul_one]
  ring

/-- Reversing the order of one variable changes the sign of the coefficient (ties allowed). -/
theorem C53_reverse {n : ℕ} (a b a' : Fin n → ℝ) (h : ∀ i j, a' i < a' j ↔ a j < a i) :
    rankCorr a' b = -rankCorr a b := by
  rcases Nat.eq_zero_or_pos n with rfl | hn
  · simp [rankCorr, meanSq]
  unfold rankCorr
  simp only [avgRank_reverse h]
  rw [neg_sub]
  congr 1
  · rw [← meanSq_add (fun i => avgRank a i + avgRank b i) (-(n + 1)) (fun _ => 0) hn.ne', ← meanSq_neg]
    congr 1
    funext i
    push_cast
    ring
  · rw [← meanSq_add (fun i => avgRank a i - avgRank b i) (-(n + 1)) (fun _ => 0) hn.ne', ← meanSq_neg]
    congr 1
    funext i
    push_cast
    ring

private lemma avgRank_rotate {n : ℕ} {a a' : Fin n → ℝ} {t : ℝ} (ha : ∀ i, 0 ≤ a i ∧ a i < 2 * π)
    (ha' : ∀ i, 0 ≤ a' i ∧ a' i < 2 * π) (k : Fin n → ℤ) (hk : ∀ i, a' i = a i + t + k i * (2 * π)) (i : Fin n) :
    avgRank a' i = avgRank a i + (-∑ j, (k j : ℝ)) - n * ((-k i : ℤ) : ℝ) := by
  classical
  have hpi := two_pi_pos
  have cases3 : ∀ j, k j = k i ∨ (k j = k i + 1 ∧ a' i < a' j + 0 ∧ a j < a i) ∨
      (k j = k i - 1 ∧ a' j < a' i ∧ a i < a j) := by
    intro j
    have e : ((k j : ℝ) - k i) * (2 * π) = (a' j - a' i) - (a j - a i) := by rw [hk j, hk i]; ring
    have b1 := ha i; have b2 := ha j; have b3 := ha' i; have b4 := ha' j
    have h1 : ((k j : ℝ) - k i) < 2 := by nlinarith
    have h2 : -2 < ((k j : ℝ) - k i) := by nlinarith
    have h1' : k j - k i < 2 := by exact_mod_cast h1
    have h2' : -2 < k j - k i := by exact_mod_cast h2
    rcases (show k j = k i ∨ k j = k i + 1 ∨ k j = k i - 1 by omega) with h | h | h
    · exact Or.inl h
    · refine Or.inr (Or.inl ⟨h, ?_, ?_⟩)
      · rw [h] at e; push_cast at e; linarith
      · rw [h] at e; push_cast at e; linarith
    · refine Or.inr (Or.inr ⟨h, ?_, ?_⟩)
      · rw [h] at e; push_cast at e; linarith
      · rw [h] at e; push_cast at e; linarith
  have elt : ∀ j, (if a' j < a' i then (1 : ℝ) else 0) = (if a j < a i then 1 else 0) - k j + k i := by
    intro j
    rcases cases3 j with h | ⟨h, h1, h2⟩ | ⟨h, h1, h2⟩
    · have : a' j < a' i ↔ a j < a i := by rw [hk j, hk i, h]; constructor <;> intro h' <;> linarith
      simp only [this, h]; ring
    · rw [add_zero] at h1
      rw [if_neg (not_lt.2 h1.le), if_pos h2, h]; push_cast; ring
    · rw [if_pos h1, if_neg (not_lt.2 h2.le), h]; push_cast; ring
  have eeq : ∀ j, a' j = a' i ↔ a j = a i := by
    intro j
    rcases cases3 j with h | ⟨h, h1, h2⟩ | ⟨h, h1, h2⟩
    · rw [hk j, hk i, h]; constructor <;> intro h' <;> linarith
    · rw [add_zero] at h1
      exact iff_of_false h1.ne' h2.ne
    · exact iff_of_false h1.ne h2.ne'
  rw [avgRank_eq, avgRank_eq]
  simp only [elt, eeq, Finset.sum_add_distrib, Finset.sum_sub_distrib]
  rw [Finset.sum_const, Finset.card_univ, Fintype.card_fin, nsmul_eq_mul]
  push_cast
  ring

/-- For angles in `[0, 2π)` the choice of the zero direction of either variable does not matter. -/
theorem C53_rotate {n : ℕ} (a b a' : Fin n → ℝ) (t : ℝ) (ha : ∀ i, 0 ≤ a i ∧ a i < 2 * π)
    (ha' : ∀ i, 0 ≤ a' i ∧ a' i < 2 * π) (h : ∀ i, SameDir (a' i) (a i + t)) :
    rankCorr a' b = rankCorr a b := by
  rcases Nat.eq_zero_or_pos n with rfl | hn
  · simp [rankCorr, meanSq]
  choose k hk using h
  unfold rankCorr
  simp only [avgRank_rotate ha ha' k hk]
  congr 1
  · rw [← meanSq_add (fun i => avgRank a i - avgRank b i) (-∑ j, (k j : ℝ)) (fun i => -k i) hn.ne']
    congr 1
    funext i
    ring
  · rw [← meanSq_add (fun i => avgRank a i + avgRank b i) (-∑ j, (k j : ℝ)) (fun i => -k i) hn.ne']
    congr 1
    funext i
    ring

/-- The order in which the pairs are listed does not matter. -/
theorem C53_perm {n : ℕ} (a b : Fin n → ℝ) (σ : Equiv.Perm (Fin n)) :
    rankCorr (fun i => a (σ i)) (fun i => b (σ i)) = rankCorr a b := by
  classical
  have key : ∀ (u : Fin n → ℝ) (i : Fin n), avgRank (fun i => u (σ i)) i = avgRank u (σ i) := by
    intro u i
    rw [avgRank_eq, avgRank_eq]
    rw [Equiv.sum_comp σ fun j => if u j < u (σ i) then (1 : ℝ) else 0,
      Equiv.sum_comp σ fun j => if u j = u (σ i) then (1 : ℝ) else 0]
  unfold rankCorr meanSq
  simp only [key]
  rw [Equiv.sum_comp σ fun i => Complex.exp (((2 * π / n * (avgRank a i - avgRank b i) : ℝ) : ℂ) * Complex.I),
    Equiv.sum_comp σ fun i => Complex.exp (((2 * π / n * (avgRank a i + avgRank b i) : ℝ) : ℂ) * Complex.I)]

private lemma sum_rank {n : ℕ} {a : Fin n → ℝ} (h : Function.Injective a) (f : ℝ → ℂ) :
    ∑ i, f (avgRank a i) = ∑ k : Fin n, f (k + 1) := by
  classical
  have hlt : ∀ i, (Finset.univ.filter fun j => a j < a i).card < n := by
    intro i
    have : (Finset.univ.filter fun j => a j < a i) ⊂ Finset.univ :=
      Finset.filter_ssubset.2 ⟨i, Finset.mem_univ i, lt_irrefl _⟩
    simpa using Finset.card_lt_card this
  let g : Fin n → Fin n := fun i => ⟨(Finset.univ.filter fun j => a j < a i).card, hlt i⟩
  have hmono : ∀ i i', a i < a i' → (g i : ℕ) < g i' := by
    intro i i' hi
    show (Finset.univ.filter fun j => a j < a i).card < (Finset.univ.filter fun j => a j < a i').card
    refine Finset.card_lt_card ⟨fun j hj => ?_, fun hc => ?_⟩
    · simp only [Finset.mem_filter, Finset.mem_univ, true_and] at hj ⊢
      exact hj.trans hi
    · have := hc (by simpa using hi : i ∈ Finset.univ.filter fun j => a j < a i')
      simp at this
  have hinj : Function.Injective g := by
    intro i i' hg
    by_contra hne
    rcases lt_or_gt_of_ne (fun e => hne (h e) : a i ≠ a i') with hc | hc
    · exact absurd (congrArg Fin.val hg) (hmono _ _ hc).ne
    · exact absurd (congrArg Fin.val hg) (hmono _ _ hc).ne'
  have hbij : Function.Bijective g := Finite.injective_iff_bijective.1 hinj
  have hr : ∀ i, avgRank a i = (g i : ℕ) + 1 := by
    intro i
    unfold avgRank
    have : (Finset.univ.filter fun j => a j = a i) = {i} := by
      ext j; simp only [Finset.mem_filter, Finset.mem_univ, true_and, Finset.mem_singleton]; exact h.eq_iff
    rw [this, Finset.card_singleton]
    norm_num
    rfl
  simp only [hr]
  exact Function.Bijective.sum_comp hbij fun k : Fin n => f ((k : ℕ) + 1)

/-- Without ties a variable is perfectly correlated with itself, and perfectly negatively with any
variable in reversed order. -/
theorem C53_self {n : ℕ} (a : Fin n → ℝ) (h : Function.Injective a) (hn : 3 ≤ n) : rankCorr a a = 1 := by
  have hn0 : (n : ℂ) ≠ 0 := by
    have : n ≠ 0 := by omega
    exact_mod_cast this
  have h1 : meanSq (fun i => avgRank a i - avgRank a i) = 1 := by
    unfold meanSq
    simp [hn0]
  have h2 : meanSq (fun i => avgRank a i + avgRank a i) = 0 := by
    unfold meanSq
    have key : ∑ i, Complex.exp (((2 * π / n * (avgRank a i + avgRank a i) : ℝ) : ℂ) * Complex.I) = 0 := by
      rw [sum_rank h fun x => Complex.exp (((2 * π / n * (x + x) : ℝ) : ℂ) * Complex.I)]
      set ζ := Complex.exp (2 * π * Complex.I / n) with hζ
      have hprim : IsPrimitiveRoot ζ n := Complex.isPrimitiveRoot_exp n (by omega)
      have e : ∀ k : Fin n, Complex.exp (((2 * π / n * ((k : ℕ) + 1 + ((k : ℕ) + 1)) : ℝ) : ℂ) * Complex.I)
          = ζ ^ 2 * (ζ ^ 2) ^ (k : ℕ) := by
        intro k
        rw [← pow_mul, ← pow_add, hζ, ← Complex.exp_nat_mul]
        congr 1
        push_cast
        ring
      simp only [e, ← Finset.mul_sum]
      rw [Fin.sum_univ_eq_sum_range (fun k => (ζ ^ 2) ^ k) n]
      have hne : ζ ^ 2 ≠ 1 := hprim.pow_ne_one_of_pos_of_lt (by norm_num) (by omega)
      rw [geom_sum_eq hne, ← pow_mul, mul_comm 2 n, pow_mul, hprim.pow_eq_one]
      simp
    rw [key]
    simp
  unfold rankCorr
  rw [h1, h2, sub_zero]

/-- Three different directions, correlated with themselves. -/
example : rankCorr ![0, 1, 2] ![0, 1, 2] = 1 :=
  C53_self _ (by intro i j h; fin_cases i <;> fin_cases j <;> simp_all) (le_refl 3)

/-- Any method name other than the three known ones raises a `ValueError`. -/
theorem C53_methods (a b : List ℝ) (pa pb : Option ℝ) (lower : String) (test strict : Bool) (z : ℝ) (cdf : ℝ → ℝ)
    (h : lower ≠ "fl" ∧ lower ≠ "js" ∧ lower ≠ "nonparametric") :
    circCorrcc a b pa pb lower test strict z cdf = .error .valueError := by
  unfold circCorrcc
  rw [if_neg h.1, if_neg h.2.1, if_neg h.2.2]

/-- The test is one-sided: a coefficient of 0 or below never leads to rejection, however many pairs there are. -/
theorem C53_one_sided {n : ℕ} (a b : Fin n → ℝ) (pa pb : Option ℝ) (test strict : Bool) (z : ℝ) (cdf : ℝ → ℝ)
    (hn : 3 ≤ n) (h : rankCorr a b ≤ 0) :
    ∃ res, circCorrcc (List.ofFn a) (List.ofFn b) pa pb "nonparametric" test strict z cdf = .ok res ∧
      res.reject = some false := by
  obtain ⟨res, rej, h1, -, h2, h3⟩ := C53_value a b pa pb test strict z cdf hn
  refine ⟨res, h1, ?_⟩
  rw [h2, Option.some_inj, Bool.eq_false_iff, Ne, h3, not_lt]
  have hn' : (3 : ℝ) ≤ n := by exact_mod_cast hn
  have : ((n : ℝ) - 1) * rankCorr a b ≤ 0 := mul_nonpos_of_nonneg_of_nonpos (by linarith) h
  have : 0 ≤ 2.99 + 2.16 / (n : ℝ) := by positivity
  linarith

/-- Hence a perfect association is detected from five pairs on when both variables turn the same way, and never, whatever
the number of pairs, when they turn in opposite ways. -/
theorem C53_blind {n : ℕ} (a b : Fin n → ℝ) (pa pb : Option ℝ) (test strict : Bool) (z : ℝ) (cdf : ℝ → ℝ)
    (ha : Function.Injective a) (hn : 5 ≤ n) (hb : ∀ i j, b i < b j ↔ a j < a i) :
    (∃ res, circCorrcc (List.ofFn a) (List.ofFn a) pa pb "nonparametric" test strict z cdf = .ok res ∧
      res.r = some 1 ∧ res.reject = some true) ∧
    ∃ res, circCorrcc (List.ofFn b) (List.ofFn a) pa pb "nonparametric" test strict z cdf = .ok res ∧
      res.r = some (-1) ∧ res.reject = some false := by
  have h1 := C53_self a ha (by omega)
  have h2 : rankCorr b a = -1 := by rw [C53_reverse a a b hb, h1]
  have hn' : (5 : ℝ) ≤ n := by exact_mod_cast hn
  constructor
  · obtain ⟨res, rej, e1, e2, e3, e4⟩ := C53_value a a pa pb test strict z cdf (by omega)
    refine ⟨res, e1, by rw [e2, h1], ?_⟩
    rw [e3, Option.some_inj, e4, h1, mul_one]
    have : (2.16 : ℝ) / n ≤ 2.16 / 5 := by gcongr
    norm_num at this ⊢
    linarith
  · obtain ⟨res, rej, e1, e2, e3, e4⟩ := C53_value b a pa pb test strict z cdf (by omega)
    obtain ⟨res', f1, f2⟩ := C53_one_sided b a pa pb test strict z cdf (by omega) (by rw [h2]; norm_num)
    have : res' = res := by rw [e1] at f1; exact (Except.ok.inj f1).symm
    exact ⟨res, e1, by rw [e2, h2], this ▸ f2⟩

/-- A case meeting the hypotheses: angles `i` and `-i`. -/
example (n : ℕ) (hn : 5 ≤ n) (z : ℝ) (cdf : ℝ → ℝ) :
    ∃ res, circCorrcc (List.ofFn fun i : Fin n => -(i : ℝ)) (List.ofFn fun i : Fin n => (i : ℝ)) none none "nonparametric"
      true true z cdf = .ok res ∧ res.r = some (-1) ∧ res.reject = some false :=
  (C53_blind (fun i : Fin n => (i : ℝ)) (fun i => -(i : ℝ)) none none true true z cdf
    (fun _ _ h => Fin.ext (Nat.cast_injective (R := ℝ) h)) hn fun _ _ => neg_lt_neg_iff).2

end Verif.Props
