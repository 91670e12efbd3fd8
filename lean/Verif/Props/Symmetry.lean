import Verif.Lemmas.SignedRank
import Verif.Props.Median
import Mathlib.Analysis.Real.Pi.Bounds

/-!
# C113: the symmetry test
-/

set_option autoImplicit false

namespace Verif.Props

open Real Verif Verif.Spec

lemma signedDev_angmodB (m a : ℝ) : IsSignedDev m a (angmodB (-π) π (a - m)) := by
  have hpi : -π < π := by linarith [pi_pos]
  obtain ⟨h1, h2⟩ := angmodB_mem hpi (a - m)
  refine ⟨h1, h2, ?_⟩
  obtain ⟨k, hk⟩ := angmodB_cong hpi (a - m)
  exact ⟨-k, by rw [hk]; push_cast; ring⟩

lemma angmodB_signedDev {m a e : ℝ} (h : IsSignedDev m a e) : angmodB (-π) π (a - m) = e := by
  have hpi : -π < π := by linarith [pi_pos]
  obtain ⟨h1, h2, k, hk⟩ := h
  rw [angmodB_eq_iff hpi]
  exact ⟨h1, h2, -k, by rw [hk]; push_cast; ring⟩

lemma signedDev_unique {m a e e' : ℝ} (h : IsSignedDev m a e) (h' : IsSignedDev m a e') : e = e' :=
  (angmodB_signedDev h).symm.trans (angmodB_signedDev h')

lemma signedDev_zero_iff {m a e : ℝ} (h : IsSignedDev m a e) : e = 0 ↔ SameDir a m := by
  constructor
  · rintro rfl; simpa using h.2.2
  · intro h'
    apply signedDev_unique h
    exact ⟨by linarith [pi_pos], pi_pos, by simpa using h'⟩

lemma map_dev_eq {m : ℝ} {alpha es : List ℝ} (h : List.Forall₂ (IsSignedDev m) alpha es) :
    (alpha.map fun a => angmodB (-π) π (a - m)) = es := by
  induction h with
  | nil => rfl
  | cons h _ ih => rw [List.map_cons, ih, angmodB_signedDev h]

lemma forall_dev (m : ℝ) (alpha : List ℝ) :
    List.Forall₂ (IsSignedDev m) alpha (alpha.map fun a => angmodB (-π) π (a - m)) := by
  induction alpha with
  | nil => exact .nil
  | cons a l ih => exact .cons (signedDev_angmodB m a) ih

lemma symmetryTest_some (alpha : List ℝ) (m : ℝ) (hne : alpha ≠ [])
    (pv : ℕ → Multiset ℝ → ℝ → ℝ → Option ℝ) (init : List (Option ℝ)) :
    symmetryTest alpha (some m) pv init
      = .ok (wilcoxon (alpha.map fun a => angmodB (-π) π (a - m)) pv) := by
  unfold symmetryTest symmetryAt
  rw [if_neg hne]

/-- An empty sample is refused, whatever the median. -/
theorem C113_empty (median : Option ℝ) (pv : ℕ → Multiset ℝ → ℝ → ℝ → Option ℝ)
    (init : List (Option ℝ)) : symmetryTest [] median pv init = .error .valueError := by
  unfold symmetryTest; simp

/-- **What the test computes.** Let `es` be the signed angles in `[-π, π)` from the median to the
observations and `nz` those that are not zero, `n` of them. With `W` the number of pairs of
observations (each may be paired with itself) whose deviations have positive sum — sums of zero
counting one half — the statistic is the smaller of `W` and `n(n+1)/2 - W`, and the p-value is scipy's
for these two rank sums, for the average ranks of the absolute deviations and for the number of
observations at the median. -/
theorem C113_statistic (alpha es nz : List ℝ) (m : ℝ) (hne : alpha ≠ [])
    (hes : List.Forall₂ (IsSignedDev m) alpha es) (hnz : nz = es.filter fun e => decide (e ≠ 0))
    (n : ℝ) (hn : n = nz.length)
    (pv : ℕ → Multiset ℝ → ℝ → ℝ → Option ℝ) (init : List (Option ℝ)) :
    symmetryTest alpha (some m) pv init
      = .ok (some (min (walshPlus nz) (n * (n + 1) / 2 - walshPlus nz)),
          pv (alpha.length - nz.length)
            (Multiset.ofList ((nz.map fun e => |e|).map (midRank (nz.map fun e => |e|))))
            (walshPlus nz) (n * (n + 1) / 2 - walshPlus nz)) := by
  subst hn
  rw [symmetryTest_some alpha m hne, map_dev_eq hes, wilcoxon_eq es nz hnz, hes.length_eq]

/-- Three observations, deviations `1, 2, -1/2` from the median `3`: `W = 5`, of `6` pairs. -/
example : List.Forall₂ (IsSignedDev 3) [4, 5, 5 / 2] [1, 2, -(1 / 2)] ∧
    walshPlus [1, 2, -(1 / 2)] = 5 := by
  have h3 := pi_gt_three
  refine ⟨.cons ⟨by linarith, by linarith, 0, by norm_num⟩
    (.cons ⟨by linarith, by linarith, 0, by norm_num⟩
      (.cons ⟨by linarith, by linarith, 0, by norm_num⟩ .nil)), ?_⟩
  norm_num [walshPlus, halfStep]

open Classical in
/-- The statistic is between `0` and `n(n+1)/4`, where `n` is the number of observations that do not
point in the direction of the median. -/
theorem C113_range (alpha : List ℝ) (m T : ℝ) (p : Option ℝ)
    (pv : ℕ → Multiset ℝ → ℝ → ℝ → Option ℝ) (init : List (Option ℝ))
    (h : symmetryTest alpha (some m) pv init = .ok (some T, p)) (n : ℕ)
    (hn : n = alpha.countP fun a => decide (¬ SameDir a m)) :
    0 ≤ T ∧ T ≤ n * (n + 1) / 4 := by
  have hne : alpha ≠ [] := by
    rintro rfl; rw [C113_empty] at h; exact absurd h (by simp)
  have hes := forall_dev m alpha
  obtain ⟨es, he⟩ : ∃ es, es = alpha.map fun a => angmodB (-π) π (a - m) := ⟨_, rfl⟩
  rw [← he] at hes
  have hlen : (n : ℝ) = ((es.filter fun e => decide (e ≠ 0)).length : ℝ) := by
    rw [hn, ← List.countP_eq_length_filter, he, List.countP_map]
    congr 1
    apply List.countP_congr
    intro a _
    simp [signedDev_zero_iff (signedDev_angmodB m a)]
  rw [C113_statistic alpha es _ m hne hes rfl n hlen] at h
  simp only [Except.ok.injEq, Prod.mk.injEq, Option.some.injEq] at h
  obtain ⟨rfl, -⟩ := h
  have e := walshPlus_add_neg (es.filter fun e => decide (e ≠ 0))
  rw [← hlen] at e
  have h1 := walshPlus_nonneg (es.filter fun e => decide (e ≠ 0))
  have h2 := walshPlus_nonneg ((es.filter fun e => decide (e ≠ 0)).map fun x => -x)
  constructor
  · exact le_min h1 (by linarith)
  · have a1 := min_le_left (walshPlus (es.filter fun e => decide (e ≠ 0)))
      (n * (n + 1) / 2 - walshPlus (es.filter fun e => decide (e ≠ 0)))
    have a2 := min_le_right (walshPlus (es.filter fun e => decide (e ≠ 0)))
      (n * (n + 1) / 2 - walshPlus (es.filter fun e => decide (e ≠ 0)))
    linarith

/-- The statistic is zero exactly if no two observations lie on different sides of the median: all
signed deviations are `≥ 0`, or all are `≤ 0`. -/
theorem C113_zero_iff (alpha es : List ℝ) (m T : ℝ) (p : Option ℝ)
    (hes : List.Forall₂ (IsSignedDev m) alpha es)
    (pv : ℕ → Multiset ℝ → ℝ → ℝ → Option ℝ) (init : List (Option ℝ))
    (h : symmetryTest alpha (some m) pv init = .ok (some T, p)) :
    T = 0 ↔ (∀ e ∈ es, 0 ≤ e) ∨ ∀ e ∈ es, e ≤ 0 := by
  have hne : alpha ≠ [] := by
    rintro rfl; rw [C113_empty] at h; exact absurd h (by simp)
  obtain ⟨nz, hnz⟩ : ∃ nz, nz = es.filter fun e => decide (e ≠ 0) := ⟨_, rfl⟩
  have hmem : ∀ e, e ∈ nz ↔ e ∈ es ∧ e ≠ 0 := by intro e; rw [hnz, List.mem_filter]; simp
  rw [C113_statistic alpha es nz m hne hes hnz _ rfl] at h
  simp only [Except.ok.injEq, Prod.mk.injEq, Option.some.injEq] at h
  obtain ⟨rfl, -⟩ := h
  have e := walshPlus_add_neg nz
  have e1 : (nz.length : ℝ) * (nz.length + 1) / 2 - walshPlus nz = walshPlus (nz.map fun x => -x) := by
    linarith
  rw [e1]
  have h1 := walshPlus_nonneg nz
  have h2 := walshPlus_nonneg (nz.map fun x => -x)
  have z1 := walshPlus_eq_zero nz (fun x hx => ((hmem x).1 hx).2)
  have z2 := walshPlus_eq_zero (nz.map fun x => -x) (by
    intro x hx
    obtain ⟨y, hy, rfl⟩ := List.mem_map.1 hx
    exact neg_ne_zero.2 ((hmem y).1 hy).2)
  have z3 : min (walshPlus nz) (walshPlus (nz.map fun x => -x)) = 0
      ↔ walshPlus nz = 0 ∨ walshPlus (nz.map fun x => -x) = 0 := by
    constructor
    · intro h
      rcases min_choice (walshPlus nz) (walshPlus (nz.map fun x => -x)) with g | g
      · left; rw [← g]; exact h
      · right; rw [← g]; exact h
    · rintro (h | h)
      · rw [h]; exact min_eq_left h2
      · rw [h]; exact min_eq_right h1
  rw [z3, z1, z2, or_comm]
  constructor
  · rintro (g | g)
    · left
      intro x hx
      by_cases hx0 : x = 0
      · exact hx0.ge
      · have := g (-x) (List.mem_map.2 ⟨x, (hmem x).2 ⟨hx, hx0⟩, rfl⟩)
        linarith
    · right
      intro x hx
      by_cases hx0 : x = 0
      · exact hx0.le
      · exact (g x ((hmem x).2 ⟨hx, hx0⟩)).le
  · rintro (g | g)
    · left
      intro x hx
      obtain ⟨y, hy, rfl⟩ := List.mem_map.1 hx
      have := lt_of_le_of_ne (g y ((hmem y).1 hy).1) (Ne.symm ((hmem y).1 hy).2)
      linarith
    · right
      intro x hx
      exact lt_of_le_of_ne (g x ((hmem x).1 hx).1) ((hmem x).1 hx).2

/-- Statistic and p-value do not depend on the order of the observations. -/
theorem C113_order (alpha beta : List ℝ) (m : ℝ) (h : alpha.Perm beta)
    (pv : ℕ → Multiset ℝ → ℝ → ℝ → Option ℝ) (init init' : List (Option ℝ)) :
    symmetryTest beta (some m) pv init' = symmetryTest alpha (some m) pv init := by
  by_cases hne : alpha = []
  · subst hne; rw [h.symm.eq_nil, C113_empty, C113_empty]
  · have hne' : beta ≠ [] := by rintro rfl; exact hne h.eq_nil
    rw [symmetryTest_some _ _ hne, symmetryTest_some _ _ hne']
    congr 1
    exact (wilcoxon_perm (h.map _) pv).symm

lemma signedDev_turn {t a a' m m' e : ℝ} (ha : SameDir a' (a + t)) (hm : SameDir m' (m + t))
    (h : IsSignedDev m a e) : IsSignedDev m' a' e := by
  obtain ⟨h1, h2, k, hk⟩ := h
  obtain ⟨i, hi⟩ := ha
  obtain ⟨j, hj⟩ := hm
  exact ⟨h1, h2, k + i - j, by rw [hi, hj, hk]; push_cast; ring⟩

lemma forall_signedDev_turn {t m m' : ℝ} (hm : SameDir m' (m + t)) :
    ∀ {alpha beta es : List ℝ}, List.Forall₂ (fun a b => SameDir b (a + t)) alpha beta →
      List.Forall₂ (IsSignedDev m) alpha es → List.Forall₂ (IsSignedDev m') beta es
  | _, _, _, .nil, .nil => .nil
  | _, _, _, .cons ha h, .cons he hes =>
    .cons (signedDev_turn ha hm he) (forall_signedDev_turn hm h hes)

/-- Turning the data and the median together, and changing the whole turns in which each angle is
written, changes neither the statistic nor the p-value. -/
theorem C113_rotate (alpha beta : List ℝ) (m m' t : ℝ) (hm : SameDir m' (m + t))
    (h : List.Forall₂ (fun a b => SameDir b (a + t)) alpha beta)
    (pv : ℕ → Multiset ℝ → ℝ → ℝ → Option ℝ) (init init' : List (Option ℝ)) :
    symmetryTest beta (some m') pv init' = symmetryTest alpha (some m) pv init := by
  by_cases hne : alpha = []
  · subst hne; cases h; rw [C113_empty, C113_empty]
  · have hne' : beta ≠ [] := by rintro rfl; cases h; exact hne rfl
    rw [symmetryTest_some _ _ hne, symmetryTest_some _ _ hne']
    have hes := forall_dev m alpha
    rw [map_dev_eq (forall_signedDev_turn hm h hes)]

/-- With the median left to the library: turning a sample given in `[0, 2π)` (not all of one direction)
and wrapping it back changes neither the statistic nor the p-value. -/
theorem C113_rotate_default (alpha : List ℝ) (hne : alpha ≠ [])
    (hc : allCoincide alpha (ones alpha) = false) (hr : ∀ a ∈ alpha, 0 ≤ a ∧ a < 2 * π) (t : ℝ)
    (beta : List ℝ) (hbeta : beta = alpha.map fun a => angmod2pi (a + t))
    (pv : ℕ → Multiset ℝ → ℝ → ℝ → Option ℝ) (init : List (Option ℝ))
    (hinit : init.length = alpha.length) :
    symmetryTest beta none pv init = symmetryTest alpha none pv init := by
  have hne' : beta ≠ [] := by rw [hbeta]; simpa using hne
  have hf : List.Forall₂ (fun a b => SameDir b (a + t)) alpha beta := by
    rw [hbeta, List.forall₂_map_right_iff]
    exact List.forall₂_same.2 fun x _ => angmod2pi_cong _
  unfold symmetryTest
  rw [if_neg hne, if_neg hne']
  dsimp only
  rcases C18_deviation_rotate alpha init hne hinit hc hr t beta hbeta with ⟨h1, h2⟩ | ⟨m, m', h1, h2, h3⟩
  · rw [h1, h2]; rfl
  · rw [h1, h2]
    have := C113_rotate alpha beta m m' t h3 hf pv init init
    rw [symmetryTest_some _ _ hne, symmetryTest_some _ _ hne'] at this
    exact this

/-- If the library's median is `nan` (it warns and reports `nan` when the median is not unique enough),
statistic and p-value are both `nan`; otherwise the result is the one for the reported median. -/
theorem C113_default (alpha : List ℝ) (hne : alpha ≠ [])
    (pv : ℕ → Multiset ℝ → ℝ → ℝ → Option ℝ) (init : List (Option ℝ)) :
    (circMedian alpha (ones alpha) "deviation" true "all" init = .ok none →
      symmetryTest alpha none pv init = .ok (none, none)) ∧
    ∀ m, circMedian alpha (ones alpha) "deviation" true "all" init = .ok (some [m]) →
      symmetryTest alpha none pv init = symmetryTest alpha (some m) pv init := by
  unfold symmetryTest
  rw [if_neg hne]
  dsimp only
  constructor
  · intro h; rw [h]; rfl
  · intro m h; rw [h, if_neg hne]; rfl

lemma signedDev_reflect {a b m e : ℝ} (hb : SameDir b (2 * m - a)) (ho : ¬ SameDir a (m + π))
    (h : IsSignedDev m a e) : IsSignedDev m b (-e) := by
  obtain ⟨h1, h2, k, hk⟩ := h
  obtain ⟨i, hi⟩ := hb
  refine ⟨by linarith, ?_, i - k, by rw [hi, hk]; push_cast; ring⟩
  rcases eq_or_lt_of_le h1 with g | g
  · exact absurd ⟨k - 1, by rw [hk, ← g]; push_cast; ring⟩ ho
  · linarith

lemma forall_signedDev_reflect {m : ℝ} :
    ∀ {alpha beta es : List ℝ}, List.Forall₂ (fun a b => SameDir b (2 * m - a)) alpha beta →
      (∀ a ∈ alpha, ¬ SameDir a (m + π)) →
      List.Forall₂ (IsSignedDev m) alpha es → List.Forall₂ (IsSignedDev m) beta (es.map fun e => -e)
  | _, _, _, .nil, _, .nil => .nil
  | _, _, _, .cons ha h, ho, .cons he hes => by
    rw [List.map_cons]
    exact .cons (signedDev_reflect ha (ho _ (by simp)) he)
      (forall_signedDev_reflect h (fun a g => ho a (by simp [g])) hes)

/-- Reflecting the data about the median changes neither the statistic nor the (two-sided) p-value,
provided no observation is exactly opposite the median. -/
theorem C113_reflect (alpha beta : List ℝ) (m : ℝ)
    (h : List.Forall₂ (fun a b => SameDir b (2 * m - a)) alpha beta)
    (ho : ∀ a ∈ alpha, ¬ SameDir a (m + π))
    (pv : ℕ → Multiset ℝ → ℝ → ℝ → Option ℝ) (hpv : ∀ z r a b, pv z r a b = pv z r b a)
    (init init' : List (Option ℝ)) :
    symmetryTest beta (some m) pv init' = symmetryTest alpha (some m) pv init := by
  by_cases hne : alpha = []
  · subst hne; cases h; rw [C113_empty, C113_empty]
  · have hne' : beta ≠ [] := by rintro rfl; cases h; exact hne rfl
    rw [symmetryTest_some _ _ hne, symmetryTest_some _ _ hne']
    have hes := forall_dev m alpha
    rw [map_dev_eq (forall_signedDev_reflect h ho hes), wilcoxon_neg _ pv hpv]

/-- The proviso of `C113_reflect` is needed: an observation exactly opposite the median counts as lying
on the negative side. The sample `π, 1` with median `0` has the statistic `1`, its mirror image
`-π, -1` has the statistic `0`. -/
theorem C113_reflect_fails (pv : ℕ → Multiset ℝ → ℝ → ℝ → Option ℝ) (init : List (Option ℝ)) :
    List.Forall₂ (fun a b => SameDir b (2 * 0 - a)) [π, 1] [-π, -1] ∧
    (∃ p, symmetryTest [π, 1] (some 0) pv init = .ok (some 1, p)) ∧
    ∃ p, symmetryTest [-π, -1] (some 0) pv init = .ok (some 0, p) := by
  have h3 := pi_gt_three
  refine ⟨.cons ⟨0, by simp⟩ (.cons ⟨0, by simp⟩ .nil), ?_, ?_⟩
  · have hes : List.Forall₂ (IsSignedDev 0) [π, 1] [-π, 1] :=
      .cons ⟨by linarith, by linarith, 1, by push_cast; ring⟩
        (.cons ⟨by linarith, by linarith, 0, by norm_num⟩ .nil)
    have hnz : [-π, 1] = [-π, 1].filter fun e => decide (e ≠ 0) := by
      simp [pi_ne_zero]
    have hw : walshPlus [-π, 1] = 1 := by
      have e1 : halfStep (-π + -π) = 0 := by
        unfold halfStep; rw [if_neg (by linarith), if_neg (by linarith)]
      have e2 : halfStep (-π + 1) = 0 := by
        unfold halfStep; rw [if_neg (by linarith), if_neg (by linarith)]
      have e3 : halfStep (1 + -π) = 0 := by
        unfold halfStep; rw [if_neg (by linarith), if_neg (by linarith)]
      have e4 : halfStep (1 + 1) = 1 := by
        unfold halfStep; rw [if_pos (by norm_num)]
      simp only [walshPlus, List.map_cons, List.map_nil, List.sum_cons, List.sum_nil, e1, e2, e3, e4]
      norm_num
    rw [C113_statistic [π, 1] [-π, 1] [-π, 1] 0 (by simp) hes hnz 2 (by simp) pv init, hw,
      show min (1 : ℝ) (2 * (2 + 1) / 2 - 1) = 1 by norm_num]
    exact ⟨_, rfl⟩
  · have hes : List.Forall₂ (IsSignedDev 0) [-π, -1] [-π, -1] :=
      .cons ⟨by linarith, by linarith, 0, by norm_num⟩
        (.cons ⟨by linarith, by linarith, 0, by norm_num⟩ .nil)
    have hnz : [-π, -1] = [-π, -1].filter fun e => decide (e ≠ 0) := by
      simp [pi_ne_zero]
    have hw : walshPlus [-π, -1] = 0 :=
      (walshPlus_eq_zero _ (by simp [pi_ne_zero])).2 (by simp [pi_pos])
    rw [C113_statistic [-π, -1] [-π, -1] [-π, -1] 0 (by simp) hes hnz 2 (by simp) pv init, hw,
      show min (0 : ℝ) (2 * (2 + 1) / 2 - 0) = 0 by norm_num]
    exact ⟨_, rfl⟩

/-- A sample that is, as a set of directions with multiplicities, its own mirror image about the median
(and has no observation opposite it) gets the largest possible statistic `n(n+1)/4`. -/
theorem C113_symmetric (alpha beta es : List ℝ) (m : ℝ) (hne : alpha ≠ [])
    (h : List.Forall₂ (fun a b => SameDir b (2 * m - a)) alpha beta)
    (hp : alpha.Perm beta) (ho : ∀ a ∈ alpha, ¬ SameDir a (m + π))
    (hes : List.Forall₂ (IsSignedDev m) alpha es)
    (n : ℝ) (hn : n = (es.filter fun e => decide (e ≠ 0)).length)
    (pv : ℕ → Multiset ℝ → ℝ → ℝ → Option ℝ) (init : List (Option ℝ)) :
    ∃ p, symmetryTest alpha (some m) pv init = .ok (some (n * (n + 1) / 4), p) := by
  have h1 := map_dev_eq hes
  have h2 := map_dev_eq (forall_signedDev_reflect h ho hes)
  have h3 : es.Perm (es.map fun e => -e) := by
    rw [← h2, ← h1]; exact hp.map _
  obtain ⟨nz, hnz⟩ : ∃ nz, nz = es.filter fun e => decide (e ≠ 0) := ⟨_, rfl⟩
  have h4 : nz.Perm (nz.map fun e => -e) := by
    have := h3.filter fun e => decide (e ≠ 0)
    rw [List.filter_map, ← hnz] at this
    refine this.trans (List.Perm.of_eq ?_)
    congr 1
    rw [hnz]
    apply List.filter_congr
    intro x _
    simp
  have h5 := walshPlus_add_neg nz
  rw [← hnz] at hn
  rw [← walshPlus_perm h4, ← hn] at h5
  have h6 : walshPlus nz = n * (n + 1) / 4 := by linarith
  rw [C113_statistic alpha es nz m hne hes hnz n hn pv init, h6,
    show n * (n + 1) / 2 - n * (n + 1) / 4 = n * (n + 1) / 4 by ring, min_self]
  exact ⟨_, rfl⟩

/-- The sample `2, 4` is its own mirror image about `3`. -/
example : List.Forall₂ (fun a b => SameDir b (2 * 3 - a)) [2, 4] [4, 2] ∧
    [(2 : ℝ), 4].Perm [4, 2] ∧ List.Forall₂ (IsSignedDev 3) [2, 4] [-1, 1] ∧
    ∀ a ∈ [(2 : ℝ), 4], ¬ SameDir a (3 + π) := by
  have h3 := pi_gt_three
  refine ⟨.cons ⟨0, by norm_num⟩ (.cons ⟨0, by norm_num⟩ .nil), List.Perm.swap _ _ _,
    .cons ⟨by linarith, by linarith, 0, by norm_num⟩
      (.cons ⟨by linarith, by linarith, 0, by norm_num⟩ .nil), ?_⟩
  have key : ∀ x : ℝ, |x| ≤ 1 → ¬ SameDir (3 + x) (3 + π) := by
    rintro x hx ⟨k, hk⟩
    have hx' := abs_le.1 hx
    have h : x = (2 * k + 1) * π := by linarith
    rcases le_or_gt 0 k with g | g
    · have : (0 : ℝ) ≤ k := by exact_mod_cast g
      nlinarith
    · have : (k : ℝ) ≤ -1 := by exact_mod_cast Int.le_sub_one_of_lt g
      nlinarith
  intro a ha
  rcases List.mem_cons.1 ha with rfl | ha
  · have := key (-1) (by norm_num)
    norm_num at this ⊢
    exact this
  · rw [List.mem_singleton.1 ha]
    have := key 1 (by norm_num)
    norm_num at this ⊢
    exact this

end Verif.Props
