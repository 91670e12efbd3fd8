import Verif.Lemmas.Samples
import Verif.Lemmas.Median

/-!
# C37: circular analysis of variance
-/

set_option autoImplicit false

namespace Verif.Props

open Real Verif Verif.Spec

private lemma groupR_some {g : List ℝ} (h : g ≠ []) : groupR g = some ‖resultant g‖ := by
  have hl : (g.length : ℝ) ≠ 0 := by
    have := List.length_pos_iff.2 h
    positivity
  unfold groupR
  rw [circR_ones g h, Option.map_some, div_mul_cancel₀ _ hl]

private lemma groupR_nil : groupR [] = none := by
  unfold groupR
  rw [circR_eq, if_pos (by simp [ones])]; rfl

private lemma mapM_groupR {gs : List (List ℝ)} (h : ∀ g ∈ gs, g ≠ []) :
    gs.mapM groupR = some (gs.map fun g => ‖resultant g‖) := by
  induction gs with
  | nil => rfl
  | cons g gs ih =>
    rw [List.mapM_cons, groupR_some (h g (by simp)), ih (fun g hg => h g (by simp [hg]))]; rfl

private lemma mapM_groupR_none {gs : List (List ℝ)} (h : [] ∈ gs) : gs.mapM groupR = none := by
  induction gs with
  | nil => simp at h
  | cons g gs ih =>
    rw [List.mapM_cons]
    rcases List.mem_cons.1 h with rfl | h
    · rw [groupR_nil]; rfl
    · rw [ih h]
      cases groupR g <;> rfl

private lemma anova_eq (gs : List (List ℝ)) (method : String) (kappa : Option ℝ) (fmod : Bool)
    (fcdf : ℝ → ℤ → ℤ → ℝ) (chicdf : ℝ → ℤ → ℝ) (hk : 2 ≤ gs.length) (hne : ∀ g ∈ gs, g ≠ []) :
    circAnova gs method kappa fmod fcdf chicdf =
      (anovaOf gs (gs.map fun g => ‖resultant g‖) ‖resultant gs.flatten‖
        (kappa.getD (circKappa (‖resultant gs.flatten‖ / gs.flatten.length) none)) method fmod fcdf
        chicdf).map some := by
  have hfl : gs.flatten ≠ [] := by
    match gs, hk with
    | g :: _ :: _, _ => simp [hne g (by simp)]
  unfold circAnova
  rw [if_neg (by omega), mapM_groupR hne, groupR_some hfl]

private lemma anova_nonempty {gs : List (List ℝ)} {method : String} {kappa : Option ℝ} {fmod : Bool}
    {fcdf : ℝ → ℤ → ℤ → ℝ} {chicdf : ℝ → ℤ → ℝ} {res : AnovaResult}
    (h : circAnova gs method kappa fmod fcdf chicdf = .ok (some res)) :
    2 ≤ gs.length ∧ ∀ g ∈ gs, g ≠ [] := by
  have hk : 2 ≤ gs.length := by
    by_contra hk
    unfold circAnova at h
    rw [if_pos (by omega)] at h; cases h
  refine ⟨hk, ?_⟩
  rintro g hg rfl
  unfold circAnova at h
  rw [if_neg (by omega), mapM_groupR_none hg] at h
  simp only at h
  split_ifs at h
  simp at h

private lemma sumR_le (gs : List (List ℝ)) :
    (gs.map fun g => ‖resultant g‖).sum ≤ gs.flatten.length := by
  induction gs with
  | nil => simp
  | cons g gs ih =>
    simp only [List.map_cons, List.sum_cons, List.flatten_cons, List.length_append]
    push_cast
    exact add_le_add (norm_resultant_le g) ih

/-- C37. The F-test table: with resultant lengths `R_i` of the groups, `R` of the pooled sample and
`N` observations, the sums of squares are `Σ R_i - R`, `N - Σ R_i` and `N - R`; they are not negative
and the first two add up to the third, as do the degrees of freedom. -/
theorem C37_sums_of_squares (gs : List (List ℝ)) (kappa : Option ℝ) (fmod : Bool)
    (fcdf : ℝ → ℤ → ℤ → ℝ) (chicdf : ℝ → ℤ → ℝ) (res : AnovaResult)
    (h : circAnova gs "F-test" kappa fmod fcdf chicdf = .ok (some res)) :
    ∃ (b w t : ℝ) (db dw dt : ℤ), res.SS = [b, w, t] ∧ res.df = [db, dw, dt] ∧
      b = (gs.map fun g => ‖resultant g‖).sum - ‖resultant gs.flatten‖ ∧
      w = gs.flatten.length - (gs.map fun g => ‖resultant g‖).sum ∧
      t = gs.flatten.length - ‖resultant gs.flatten‖ ∧
      b + w = t ∧ 0 ≤ b ∧ 0 ≤ w ∧ 0 ≤ t ∧
      db = gs.length - 1 ∧ dt = gs.flatten.length - 1 ∧ db + dw = dt ∧
      (db ≠ 0 → dw ≠ 0 → w ≠ 0 → res.kappa ≠ 0 →
        res.statistic = some ((if fmod then 1 + 3 / (8 * res.kappa) else 1) * ((b / db) / (w / dw)))) ∧
      res.pval = res.statistic.map fun x => 1 - fcdf x db dw := by
  obtain ⟨hk, hne⟩ := anova_nonempty h
  rw [anova_eq gs _ _ _ _ _ hk hne] at h
  unfold anovaOf at h
  simp only [if_true, Except.map, Except.ok.injEq, Option.some.injEq] at h
  subst h
  have h1 := norm_resultant_flatten_le gs
  have h2 := sumR_le gs
  refine ⟨_, _, _, _, _, _, rfl, rfl, rfl, rfl, rfl, by ring, by linarith, by linarith, by linarith,
    rfl, rfl, by ring, ?_, rfl⟩
  intro hb hw hw0 hk0
  have hb' : ((gs.length - 1 : ℤ) : ℝ) ≠ 0 := by exact_mod_cast hb
  have hw' : ((gs.flatten.length - gs.length : ℤ) : ℝ) ≠ 0 := by exact_mod_cast hw
  have hk8 : 8 * kappa.getD (circKappa (‖resultant gs.flatten‖ / gs.flatten.length) none) ≠ 0 :=
    mul_ne_zero (by norm_num) hk0
  simp only [anovaF, pydiv, if_neg hb', if_neg hw', Option.bind_some, if_neg (div_ne_zero hw0 hw')]
  cases fmod
  · simp
  · simp only [if_true, if_neg hk8, Option.map_some]

private lemma lrt_sum (gs : List (List ℝ)) (mus : List ℝ) (m : ℝ)
    (h : List.Forall₂ (fun g mu => resultant g = (‖resultant g‖ : ℂ) * Complex.exp ((mu : ℝ) * Complex.I))
      gs mus) :
    (List.zipWith (fun R mu => R * (1 - cos (mu - m))) (gs.map fun g => ‖resultant g‖) mus).sum
      = (gs.map fun g => ‖resultant g‖).sum
        - (Complex.exp ((-m : ℝ) * Complex.I) * resultant gs.flatten).re := by
  induction h with
  | nil => simp
  | @cons g mu gs mus hg _ ih =>
    simp only [List.map_cons, List.zipWith_cons_cons, List.sum_cons, List.flatten_cons,
      resultant_append, mul_add, Complex.add_re, ih]
    have : (Complex.exp ((-m : ℝ) * Complex.I) * resultant g).re = ‖resultant g‖ * cos (mu - m) := by
      rw [hg, mul_left_comm, ← Complex.exp_add, ← add_mul, ← Complex.ofReal_add, Complex.re_ofReal_mul,
        Complex.exp_ofReal_mul_I_re, ← hg]
      rw [show -m + mu = mu - m by ring]
    rw [this]; ring

private lemma mean_polar {g : List ℝ} {mu : ℝ} (h : circMean g (ones g) = some mu) :
    resultant g = (‖resultant g‖ : ℂ) * Complex.exp ((mu : ℝ) * Complex.I) := by
  rw [circMean_eq] at h
  split_ifs at h with hc
  push Not at hc
  have hs : (0 : ℝ) < (ones g).sum := by
    have h1 := hc.1
    rw [sum_ones] at h1 ⊢
    positivity
  simp only [Option.some.injEq] at h
  subst h
  have := polar_angmod (moment g (ones g) 1)
  have hm : moment g (ones g) 1 = resultant g / ((ones g).sum : ℝ) := by rw [moment, expSum_ones]
  have hs' : ((ones g).sum : ℂ) ≠ 0 := by exact_mod_cast hs.ne'
  have hr : resultant g = moment g (ones g) 1 * ((ones g).sum : ℝ) := by
    rw [hm, div_mul_cancel₀ _ hs']
  have hn : ‖resultant g‖ = ‖moment g (ones g) 1‖ * (ones g).sum := by
    rw [hr, norm_mul, Complex.norm_real, Real.norm_eq_abs, abs_of_pos hs]
  rw [hn]
  conv_lhs => rw [hr, this]
  push_cast; ring

private lemma lrt_means {gs : List (List ℝ)} {mus : List ℝ}
    (h : (gs.map fun g => circMean g (ones g)).mapM id = some mus) :
    List.Forall₂ (fun g mu => circMean g (ones g) = some mu) gs mus := by
  induction gs generalizing mus with
  | nil =>
    simp only [List.map_nil, List.mapM_nil] at h
    cases h; exact .nil
  | cons g gs ih =>
    rw [List.map_cons, List.mapM_cons] at h
    cases hg : circMean g (ones g) with
    | none => rw [hg] at h; simp at h
    | some mu =>
      rw [hg] at h
      cases hm : (gs.map fun g => circMean g (ones g)).mapM id with
      | none => rw [hm] at h; simp at h
      | some mus' =>
        rw [hm] at h
        simp at h
        subst h
        exact .cons hg (ih hm)

/-- C37. The likelihood ratio statistic: whenever it is a number, the sum
`Σ R_i (1 - cos(μ_i - μ))` over the groups is `Σ R_i - R`, so that the statistic is
`(1 - (Σ 1/n_i - 1/N) / (4κ)) · 2κ · (Σ R_i - R)` with `Σ R_i - R ≥ 0`. -/
theorem C37_likelihood_ratio (gs : List (List ℝ)) (kappa : Option ℝ) (fmod : Bool)
    (fcdf : ℝ → ℤ → ℤ → ℝ) (chicdf : ℝ → ℤ → ℝ) (res : AnovaResult) (x : ℝ)
    (h : circAnova gs "LRT" kappa fmod fcdf chicdf = .ok (some res)) (hx : res.statistic = some x) :
    x = (1 - 1 / (4 * res.kappa) * ((gs.map fun g => 1 / (g.length : ℝ)).sum - 1 / gs.flatten.length))
          * (2 * res.kappa * ((gs.map fun g => ‖resultant g‖).sum - ‖resultant gs.flatten‖)) ∧
      0 ≤ (gs.map fun g => ‖resultant g‖).sum - ‖resultant gs.flatten‖ ∧
      res.df = [(gs.length : ℤ) - 1] ∧ res.pval = some (1 - chicdf x (gs.length - 1)) := by
  obtain ⟨hk, hne⟩ := anova_nonempty h
  rw [anova_eq gs _ _ _ _ _ hk hne] at h
  unfold anovaOf at h
  rw [if_neg (by decide), if_pos rfl] at h
  simp only [Except.map, Except.ok.injEq, Option.some.injEq] at h
  subst h
  simp only at hx
  refine ⟨?_, by linarith [norm_resultant_flatten_le gs], rfl, by simp only; rw [hx]; rfl⟩
  generalize kappa.getD (circKappa (‖resultant gs.flatten‖ / gs.flatten.length) none) = κ at hx ⊢
  cases hq : pydiv 1 (4 * κ) with
  | none => rw [hq] at hx; simp at hx
  | some q =>
    have hq' : q = 1 / (4 * κ) := by
      unfold pydiv at hq
      split_ifs at hq
      simpa using hq.symm
    cases hm : circMean gs.flatten (ones gs.flatten) with
    | none => rw [hq, hm] at hx; simp at hx
    | some m =>
      cases hmus : (gs.map fun g => circMean g (ones g)).mapM id with
      | none => rw [hq, hm, hmus] at hx; simp at hx
      | some mus =>
        rw [hq, hm, hmus] at hx
        simp only [Option.bind_some, Option.map_some, Option.some.injEq] at hx
        rw [lrt_sum gs mus m ((lrt_means hmus).imp fun _ _ => mean_polar)] at hx
        have hR : (Complex.exp ((-m : ℝ) * Complex.I) * resultant gs.flatten).re
            = ‖resultant gs.flatten‖ := by
          rw [mean_polar hm, mul_left_comm, ← Complex.exp_add, ← add_mul, ← Complex.ofReal_add,
            ← mean_polar hm]
          simp
        rw [hR, hq'] at hx
        simp only
        rw [← hx]

/-- C37. The call is refused exactly for fewer than two groups or an unknown method name. -/
theorem C37_refused (gs : List (List ℝ)) (method : String) (kappa : Option ℝ) (fmod : Bool)
    (fcdf : ℝ → ℤ → ℤ → ℝ) (chicdf : ℝ → ℤ → ℝ) :
    circAnova gs method kappa fmod fcdf chicdf = .error .valueError ↔
      gs.length < 2 ∨ (method ≠ "F-test" ∧ method ≠ "LRT") := by
  unfold circAnova
  by_cases hk : gs.length < 2
  · simp [hk]
  · rw [if_neg hk]
    simp only [hk, false_or]
    split
    · unfold anovaOf
      simp only
      split_ifs with h1 h2 <;> simp [Except.map, *]
    · split_ifs with h1
      · simp; tauto
      · simp; tauto

/-- Two groups whose table is given. -/
example : ∃ res, circAnova [[0, 1], [2, 3]] "F-test" (some 2) true (fun _ _ _ => 0) (fun _ _ => 0)
    = .ok (some res) := by
  rw [anova_eq _ _ _ _ _ _ (by simp) (by simp)]
  exact ⟨_, rfl⟩

/-- Two groups for which the likelihood ratio statistic is a number. -/
example : ∃ res x, circAnova [[0], [0]] "LRT" (some 2) true (fun _ _ _ => 0) (fun _ _ => 0)
    = .ok (some res) ∧ res.statistic = some x := by
  have h0 : circMean [0] (ones [0]) = some (angmod2pi (Complex.arg (moment [0] (ones [0]) 1))) := by
    rw [circMean_eq, if_neg]
    simp [ones, moment, expSum]; norm_num
  have h1 : circMean [0, 0] (ones [0, 0])
      = some (angmod2pi (Complex.arg (moment [0, 0] (ones [0, 0]) 1))) := by
    rw [circMean_eq, if_neg]
    simp [ones, moment, expSum]; norm_num
  rw [anova_eq _ _ _ _ _ _ (by simp) (by simp)]
  unfold anovaOf
  rw [if_neg (by decide), if_pos rfl]
  exact ⟨_, _, rfl, by simp [h0, h1, pydiv]; rfl⟩

/-! ### Symmetries -/

/-- A group without mean direction (resultant length at most `1e-8` of the size) or empty. -/
private lemma circMean_isSome (g : List ℝ) :
    (circMean g (ones g)).isSome = true ↔ g ≠ [] ∧ 1 / 10 ^ 8 < ‖resultant g‖ / g.length := by
  rw [circMean_eq, sum_ones, moment, expSum_ones, sum_ones, norm_div, Complex.norm_real, Real.norm_eq_abs,
    abs_of_nonneg (Nat.cast_nonneg _)]
  by_cases h : g = []
  · simp [h]
  · have : (g.length : ℝ) ≠ 0 := by simpa using h
    by_cases h2 : ‖resultant g‖ / g.length ≤ 1 / 10 ^ 8
    · rw [if_pos (Or.inr h2)]
      exact ⟨fun h => (by cases h), fun h => absurd h2 (not_le.2 h.2)⟩
    · simp only [this, h2, or_self, if_false, Option.isSome_some, true_iff]
      exact ⟨h, not_le.1 h2⟩

private lemma mapM_id_isSome (l : List (Option ℝ)) : (l.mapM id).isSome = true ↔ ∀ x ∈ l, x.isSome = true := by
  induction l with
  | nil => simp
  | cons a l ih =>
    rw [List.mapM_cons]
    cases a with
    | none => simp
    | some a =>
      cases h : l.mapM id with
      | none => rw [h] at ih; simpa using ih
      | some m => rw [h] at ih; simpa using ih

private lemma lrt_isSome {gs : List (List ℝ)} {kappa : Option ℝ} {fmod : Bool} {fcdf : ℝ → ℤ → ℤ → ℝ}
    {chicdf : ℝ → ℤ → ℝ} {res : AnovaResult} (h : circAnova gs "LRT" kappa fmod fcdf chicdf = .ok (some res)) :
    res.kappa = kappa.getD (circKappa (‖resultant gs.flatten‖ / gs.flatten.length) none) ∧ res.SS = [] ∧
    (res.pval = res.statistic.map fun x => 1 - chicdf x (gs.length - 1)) ∧
    (res.statistic.isSome = true ↔ 4 * res.kappa ≠ 0 ∧ (circMean gs.flatten (ones gs.flatten)).isSome = true ∧
      ∀ g ∈ gs, (circMean g (ones g)).isSome = true) := by
  obtain ⟨hk, hne⟩ := anova_nonempty h
  rw [anova_eq gs _ _ _ _ _ hk hne] at h
  unfold anovaOf at h
  rw [if_neg (by decide), if_pos rfl] at h
  simp only [Except.map, Except.ok.injEq, Option.some.injEq] at h
  subst h
  refine ⟨rfl, rfl, rfl, ?_⟩
  simp only
  have hm := mapM_id_isSome (gs.map fun g => circMean g (ones g))
  simp only [List.mem_map, forall_exists_index, and_imp, forall_apply_eq_imp_iff₂] at hm
  rw [← hm]
  unfold pydiv
  generalize kappa.getD (circKappa (‖resultant gs.flatten‖ / gs.flatten.length) none) = κ
  by_cases h4 : 4 * κ = 0
  · rw [if_pos h4]
    simp only [Option.bind_none, Option.isSome_none, Bool.false_eq_true, ne_eq, h4, not_true_eq_false, false_and]
  · rw [if_neg h4]
    simp only [ne_eq, h4, not_false_eq_true, true_and, Option.bind_some]
    cases circMean gs.flatten (ones gs.flatten) with
    | none => simp
    | some m => simp

/-- What the two methods use of the samples. -/
private lemma anova_same {gs hs : List (List ℝ)} (method : String) {kappa : Option ℝ} {fmod : Bool}
    {fcdf : ℝ → ℤ → ℤ → ℝ} {chicdf : ℝ → ℤ → ℝ} {res : AnovaResult}
    (h : circAnova gs method kappa fmod fcdf chicdf = .ok (some res))
    (hl : hs.length = gs.length) (hN : hs.flatten.length = gs.flatten.length)
    (hR : (hs.map fun g => ‖resultant g‖).sum = (gs.map fun g => ‖resultant g‖).sum)
    (hI : (hs.map fun g => 1 / (g.length : ℝ)).sum = (gs.map fun g => 1 / (g.length : ℝ)).sum)
    (hA : ‖resultant hs.flatten‖ = ‖resultant gs.flatten‖)
    (he : (∀ g ∈ gs, g ≠ []) → ∀ g ∈ hs, g ≠ [])
    (hm : (∀ g ∈ hs, (circMean g (ones g)).isSome = true) ↔ ∀ g ∈ gs, (circMean g (ones g)).isSome = true) :
    ∃ res', circAnova hs method kappa fmod fcdf chicdf = .ok (some res') ∧ res'.statistic = res.statistic ∧
      res'.pval = res.pval ∧ res'.df = res.df ∧ res'.SS = res.SS ∧ res'.kappa = res.kappa ∧ res'.Rall = res.Rall := by
  obtain ⟨hk, hne⟩ := anova_nonempty h
  have hne' := he hne
  have hmeth : method = "F-test" ∨ method = "LRT" := by
    by_contra hc
    push Not at hc
    rw [(C37_refused gs method kappa fmod fcdf chicdf).2 (Or.inr hc)] at h
    cases h
  rcases hmeth with rfl | rfl
  · rw [anova_eq gs _ _ _ _ _ hk hne] at h
    rw [anova_eq hs _ _ _ _ _ (by omega) hne']
    unfold anovaOf at h ⊢
    simp only [if_true, Except.map, Except.ok.injEq, Option.some.injEq] at h ⊢
    subst h
    refine ⟨_, rfl, ?_⟩
    simp only [hR, hA, hN, hl, and_self]
  · obtain ⟨res', h'⟩ : ∃ res', circAnova hs "LRT" kappa fmod fcdf chicdf = .ok (some res') := by
      rw [anova_eq hs _ _ _ _ _ (by omega) hne']
      unfold anovaOf
      rw [if_neg (by decide), if_pos rfl]
      exact ⟨_, rfl⟩
    obtain ⟨k1, s1, p1, i1⟩ := lrt_isSome h
    obtain ⟨k2, s2, p2, i2⟩ := lrt_isSome h'
    have hkap : res'.kappa = res.kappa := by rw [k1, k2, hA, hN]
    have hfl : hs.flatten ≠ [] ↔ gs.flatten ≠ [] := by
      rw [← List.length_pos_iff, ← List.length_pos_iff, hN]
    have hmA : (circMean hs.flatten (ones hs.flatten)).isSome = true ↔
        (circMean gs.flatten (ones gs.flatten)).isSome = true := by
      rw [circMean_isSome, circMean_isSome, hA, hN, hfl]
    have hstat : res'.statistic = res.statistic := by
      rw [hkap, hmA, hm, ← i1] at i2
      cases hx : res.statistic with
      | none =>
        rw [hx] at i2
        cases hy : res'.statistic with
        | none => rfl
        | some y => rw [hy] at i2; simp at i2
      | some x =>
        rw [hx] at i2
        cases hy : res'.statistic with
        | none => rw [hy] at i2; simp at i2
        | some y =>
          have e1 := (C37_likelihood_ratio gs kappa fmod fcdf chicdf res x h hx).1
          have e2 := (C37_likelihood_ratio hs kappa fmod fcdf chicdf res' y h' hy).1
          rw [hI, hN, hR, hA, hkap, ← e1] at e2
          rw [e2]
    have hrest : res.df = [(gs.length : ℤ) - 1] ∧ res.Rall = ‖resultant gs.flatten‖ := by
      rw [anova_eq gs _ _ _ _ _ hk hne] at h
      unfold anovaOf at h
      rw [if_neg (by decide), if_pos rfl] at h
      simp only [Except.map, Except.ok.injEq, Option.some.injEq] at h
      subst h
      exact ⟨rfl, rfl⟩
    have hrest' : res'.df = [(hs.length : ℤ) - 1] ∧ res'.Rall = ‖resultant hs.flatten‖ := by
      rw [anova_eq hs _ _ _ _ _ (by omega) hne'] at h'
      unfold anovaOf at h'
      rw [if_neg (by decide), if_pos rfl] at h'
      simp only [Except.map, Except.ok.injEq, Option.some.injEq] at h'
      subst h'
      exact ⟨rfl, rfl⟩
    refine ⟨res', h', hstat, ?_, ?_, by rw [s1, s2], hkap, ?_⟩
    · rw [p1, p2, hstat, hl]
    · rw [hrest.1, hrest'.1, hl]
    · rw [hrest.2, hrest'.2, hA]

/-- C37. Turning all observations by the same angle (whole turns of single observations allowed) changes neither
the table nor the decision, with either method. -/
theorem C37_rotate (gs hs : List (List ℝ)) (t : ℝ) (method : String) (kappa : Option ℝ) (fmod : Bool)
    (fcdf : ℝ → ℤ → ℤ → ℝ) (chicdf : ℝ → ℤ → ℝ) (res : AnovaResult)
    (h : List.Forall₂ (List.Forall₂ fun a b => SameDir b (a + t)) gs hs)
    (hres : circAnova gs method kappa fmod fcdf chicdf = .ok (some res)) :
    ∃ res', circAnova hs method kappa fmod fcdf chicdf = .ok (some res') ∧ res'.statistic = res.statistic ∧
      res'.pval = res.pval ∧ res'.df = res.df ∧ res'.SS = res.SS ∧ res'.kappa = res.kappa ∧ res'.Rall = res.Rall := by
  have hfl : List.Forall₂ (fun a b => SameDir b (a + t)) gs.flatten hs.flatten := by
    clear hres
    induction h with
    | nil => exact .nil
    | cons hab _ ih => simp only [List.flatten_cons]; exact List.rel_append hab ih
  have hmap : ∀ (f : List ℝ → ℝ), (∀ g g', List.Forall₂ (fun a b => SameDir b (a + t)) g g' → f g' = f g) →
      hs.map f = gs.map f := fun f hf => by
    clear hres hfl
    induction h with
    | nil => rfl
    | cons hab _ ih => simp only [List.map_cons, ih, hf _ _ hab]
  have hsome : ∀ g g', List.Forall₂ (fun a b => SameDir b (a + t)) g g' →
      ((circMean g' (ones g')).isSome = true ↔ (circMean g (ones g)).isSome = true) := fun g g' hg => by
    rw [circMean_isSome, circMean_isSome, norm_resultant_rotate t hg, hg.length_eq, ← List.length_pos_iff,
      ← List.length_pos_iff, hg.length_eq]
  refine anova_same method hres h.length_eq.symm hfl.length_eq.symm ?_ ?_ (norm_resultant_rotate t hfl) ?_ ?_
  · rw [hmap (fun g => ‖resultant g‖) fun g g' hg => norm_resultant_rotate t hg]
  · rw [hmap (fun g => 1 / (g.length : ℝ)) fun g g' hg => by simp only [hg.length_eq]]
  · intro he g hg
    clear hres hfl hmap
    induction h with
    | nil => simp at hg
    | cons hab _ ih =>
      rcases List.mem_cons.1 hg with rfl | hg
      · have := he _ (List.mem_cons_self ..)
        rintro rfl
        cases hab
        exact this rfl
      · exact ih (fun g hg => he g (List.mem_cons_of_mem _ hg)) hg
  · clear hres hfl hmap
    induction h with
    | nil => simp
    | cons hab _ ih => simp only [List.forall_mem_cons, ih, hsome _ _ hab]

/-- C37. The order in which the samples are listed changes neither the sums of squares nor the decision. -/
theorem C37_order (gs hs : List (List ℝ)) (method : String) (kappa : Option ℝ) (fmod : Bool)
    (fcdf : ℝ → ℤ → ℤ → ℝ) (chicdf : ℝ → ℤ → ℝ) (res : AnovaResult) (h : gs.Perm hs)
    (hres : circAnova gs method kappa fmod fcdf chicdf = .ok (some res)) :
    ∃ res', circAnova hs method kappa fmod fcdf chicdf = .ok (some res') ∧ res'.statistic = res.statistic ∧
      res'.pval = res.pval ∧ res'.df = res.df ∧ res'.SS = res.SS ∧ res'.kappa = res.kappa ∧ res'.Rall = res.Rall := by
  refine anova_same method hres h.length_eq.symm h.symm.flatten.length_eq (h.symm.map _).sum_eq (h.symm.map _).sum_eq
    (by rw [resultant_perm h.symm.flatten]) (fun he g hg => he g (h.mem_iff.2 hg)) ?_
  simp only [h.mem_iff]

/-- Two groups, turned by 1. -/
example : List.Forall₂ (List.Forall₂ fun a b => SameDir b (a + 1)) [[0, 1], [2, 3]] [[1, 2], [3, 4]] := by
  have h : ∀ a b : ℝ, b = a + 1 → SameDir b (a + 1) := fun a b h => by rw [h]; exact ⟨0, by simp⟩
  refine .cons (.cons (h _ _ (by norm_num)) (.cons (h _ _ (by norm_num)) .nil))
    (.cons (.cons (h _ _ (by norm_num)) (.cons (h _ _ (by norm_num)) .nil)) .nil)

end Verif.Props
