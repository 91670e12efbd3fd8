import Verif.Props.ChangePoint

/-!
# C49: test of equal concentration of several samples
-/

set_option autoImplicit false

namespace Verif.Props

open Real Verif Verif.Spec

/-- Weighted mean of `x` over groups with weights `w`. -/
noncomputable def wmean (gs : List (List ℝ)) (w x : List ℝ → ℝ) : ℝ :=
  (gs.map fun g => w g * x g).sum / (gs.map w).sum

/-- Weighted sum of squares of `x` about its weighted mean. -/
noncomputable def wss (gs : List (List ℝ)) (w x : List ℝ → ℝ) : ℝ :=
  (gs.map fun g => w g * (x g - wmean gs w x) ^ 2).sum

/-- Bartlett's statistic for dispersions `x` with degrees of freedom `v`, before the correction factor. -/
noncomputable def bartlett (gs : List (List ℝ)) (v x : List ℝ → ℝ) : ℝ :=
  (gs.map v).sum * log ((gs.map x).sum / (gs.map v).sum) - (gs.map fun g => v g * log (x g / v g)).sum

/-- Degrees of freedom of a group. -/
noncomputable def dfOf (g : List ℝ) : ℝ := (g.length : ℝ) - 1

/-- Dispersion of a group. -/
noncomputable def dispOf (g : List ℝ) : ℝ := (g.length : ℝ) - ‖resultant g‖

/-- Correction factor of Bartlett's test. -/
noncomputable def bartlettC (gs : List (List ℝ)) : ℝ :=
  1 + 1 / (3 * ((gs.length : ℝ) - 1)) * ((gs.map fun g => 1 / dfOf g).sum - 1 / (gs.map dfOf).sum)

/-! ### Helpers -/

private lemma zipWith_map_same {α β γ δ : Type} (f : β → γ → δ) (g : α → β) (h : α → γ) (l : List α) :
    List.zipWith f (l.map g) (l.map h) = l.map fun x => f (g x) (h x) := by
  induction l with
  | nil => rfl
  | cons a l ih => simp [ih]

private lemma weightedDev_eq (gs : List (List ℝ)) (w x : List ℝ → ℝ) (hw : (gs.map w).sum ≠ 0) :
    weightedDev (gs.map w) (gs.map x) = some (wss gs w x) := by
  unfold weightedDev
  rw [zipWith_map_same, zipWith_map_same, show pydiv _ (gs.map w).sum = some _ from if_neg hw, Option.map_some,
    weighted_ss gs w x hw]
  rfl

private lemma wss_nonneg (gs : List (List ℝ)) (w x : List ℝ → ℝ) (hw : ∀ g ∈ gs, 0 < w g) : 0 ≤ wss gs w x := by
  unfold wss
  refine List.sum_nonneg fun y hy => ?_
  obtain ⟨g, hg, rfl⟩ := List.mem_map.1 hy
  exact mul_nonneg (hw g hg).le (sq_nonneg _)

private lemma wsum_pos (gs : List (List ℝ)) (w : List ℝ → ℝ) (hne : gs ≠ []) (hw : ∀ g ∈ gs, 0 < w g) :
    0 < (gs.map w).sum := by
  apply List.sum_pos
  · intro y hy
    obtain ⟨g, hg, rfl⟩ := List.mem_map.1 hy
    exact hw g hg
  · simpa using hne

private lemma wss_eq_zero (gs : List (List ℝ)) (w x : List ℝ → ℝ) (hw : ∀ g ∈ gs, 0 < w g) :
    wss gs w x = 0 ↔ ∀ g ∈ gs, ∀ g' ∈ gs, x g = x g' := by
  constructor
  · intro h
    have hall := all_zero_of_sum_eq_zero (l := gs.map fun g => w g * (x g - wmean gs w x) ^ 2)
      (by
        intro y hy
        obtain ⟨g, hg, rfl⟩ := List.mem_map.1 hy
        exact mul_nonneg (hw g hg).le (sq_nonneg _)) h
    have key : ∀ g ∈ gs, x g = wmean gs w x := by
      intro g hg
      have := hall _ (List.mem_map.2 ⟨g, hg, rfl⟩)
      rcases mul_eq_zero.1 this with h0 | h0
      · exact absurd h0 (hw g hg).ne'
      · have := pow_eq_zero_iff (two_ne_zero) |>.1 h0
        linarith
    intro g hg g' hg'
    rw [key g hg, key g' hg']
  · intro h
    rcases gs with _ | ⟨g0, gs⟩
    · simp [wss]
    have hx : ∀ g ∈ g0 :: gs, x g = x g0 := fun g hg => h g hg g0 (by simp)
    have hsum := wsum_pos (g0 :: gs) w (by simp) hw
    have hm : wmean (g0 :: gs) w x = x g0 := by
      unfold wmean
      have : ((g0 :: gs).map fun g => w g * x g) = ((g0 :: gs).map fun g => w g * x g0) :=
        List.map_congr_left fun g hg => by rw [hx g hg]
      rw [this, List.sum_map_mul_right, mul_div_cancel_left₀ _ hsum.ne']
    unfold wss
    rw [hm]
    have : ((g0 :: gs).map fun g => w g * (x g - x g0) ^ 2) = (g0 :: gs).map fun _ => (0 : ℝ) :=
      List.map_congr_left fun g hg => by rw [hx g hg]; simp
    rw [this]
    simp

private lemma bartlett_facts (gs : List (List ℝ)) (v x : List ℝ → ℝ) (hne : gs ≠ []) (hv : ∀ g ∈ gs, 0 < v g)
    (hx : ∀ g ∈ gs, 0 < x g) : 0 ≤ bartlett gs v x ∧
      (bartlett gs v x = 0 ↔ ∀ g ∈ gs, ∀ g' ∈ gs, x g / v g = x g' / v g') := by
  have hV := wsum_pos gs v hne hv
  have hX := wsum_pos gs x hne hx
  set V := (gs.map v).sum with hVd
  set X := (gs.map x).sum with hXd
  set c := X / V with hc
  have hc0 : 0 < c := div_pos hX hV
  have e : bartlett gs v x = (gs.map fun g => v g * (x g / v g / c - 1 - log (x g / v g / c))).sum := by
    have e1 : ∀ g ∈ gs, v g * (x g / v g / c - 1 - log (x g / v g / c))
        = (1 / c) * x g + (log c - 1) * v g - v g * log (x g / v g) := by
      intro g hg
      have := hv g hg
      rw [log_div (div_pos (hx g hg) this).ne' hc0.ne']
      field_simp
      ring
    rw [List.map_congr_left e1]
    have : ∀ l : List (List ℝ), (l.map fun g => (1 / c) * x g + (log c - 1) * v g - v g * log (x g / v g)).sum
        = (1 / c) * (l.map x).sum + (log c - 1) * (l.map v).sum - (l.map fun g => v g * log (x g / v g)).sum := by
      intro l
      induction l with
      | nil => simp
      | cons a l ih => simp only [List.map_cons, List.sum_cons, ih]; ring
    rw [this, ← hVd, ← hXd]
    unfold bartlett
    rw [← hVd, ← hXd, ← hc]
    have hXV : 1 / c * X = V := by rw [hc]; field_simp
    rw [hXV]; ring
  have hterm : ∀ g ∈ gs, 0 ≤ v g * (x g / v g / c - 1 - log (x g / v g / c)) := by
    intro g hg
    refine mul_nonneg (hv g hg).le ?_
    have := log_le_sub_one_of_pos (div_pos (div_pos (hx g hg) (hv g hg)) hc0)
    linarith
  constructor
  · rw [e]
    refine List.sum_nonneg fun y hy => ?_
    obtain ⟨g, hg, rfl⟩ := List.mem_map.1 hy
    exact hterm g hg
  · rw [e]
    constructor
    · intro h
      have hall := all_zero_of_sum_eq_zero
        (l := gs.map fun g => v g * (x g / v g / c - 1 - log (x g / v g / c)))
        (by
          intro y hy
          obtain ⟨g, hg, rfl⟩ := List.mem_map.1 hy
          exact hterm g hg) h
      have key : ∀ g ∈ gs, x g / v g = c := by
        intro g hg
        have h0 := hall _ (List.mem_map.2 ⟨g, hg, rfl⟩)
        rcases mul_eq_zero.1 h0 with h0 | h0
        · exact absurd h0 (hv g hg).ne'
        · by_contra hne
          have hpos := div_pos (div_pos (hx g hg) (hv g hg)) hc0
          have := log_lt_sub_one_of_pos hpos (by rwa [Ne, div_eq_one_iff_eq hc0.ne'])
          linarith
      intro g hg g' hg'
      rw [key g hg, key g' hg']
    · intro h
      obtain ⟨g0, hg0⟩ := List.exists_mem_of_ne_nil gs hne
      have hxv : ∀ g ∈ gs, x g = x g0 / v g0 * v g := by
        intro g hg
        rw [← h g hg g0 hg0, div_mul_cancel₀ _ (hv g hg).ne']
      have hcc : c = x g0 / v g0 := by
        rw [hc, hXd, List.map_congr_left hxv, List.sum_map_mul_left, ← hVd, mul_div_assoc, div_self hV.ne', mul_one]
      have hz : (gs.map fun g => v g * (x g / v g / c - 1 - log (x g / v g / c))) = gs.map fun _ => (0 : ℝ) := by
        refine List.map_congr_left fun g hg => ?_
        rw [h g hg g0 hg0, hcc, div_self (div_pos (hx g0 hg0) (hv g0 hg0)).ne']
        simp
      rw [hz]; simp

private lemma circR_meanLen {g : List ℝ} (h : g ≠ []) : circR g (ones g) = some (meanLen g) := circR_ones g h

private lemma flatten_ne {gs : List (List ℝ)} (hk : 2 ≤ gs.length) (h2 : ∀ g ∈ gs, 2 ≤ g.length) : gs.flatten ≠ [] := by
  rcases gs with _ | ⟨g, gs⟩
  · simp at hk
  · have := h2 g (by simp)
    intro hc
    rw [List.flatten_cons, List.append_eq_nil_iff] at hc
    rw [hc.1] at this; simp at this

private lemma equalKappa_unfold {gs : List (List ℝ)} (cdf : ℝ → ℕ → ℝ) (hk : 2 ≤ gs.length)
    (h2 : ∀ g ∈ gs, 2 ≤ g.length) : equalKappa gs cdf
      = (ekStat (gs.map List.length) (gs.map meanLen) (meanLen gs.flatten)).map fun s =>
        ⟨(gs.map meanLen).map fun r => circKappa r none, circKappa (meanLen gs.flatten) none, gs.map meanLen,
          meanLen gs.flatten, gs.length - 1, s.1, s.1.map fun x => 1 - cdf x (gs.length - 1), s.2⟩ := by
  unfold equalKappa
  have n1 : ¬ ∃ g ∈ gs, g.length = 0 := by rintro ⟨g, hg, h⟩; have := h2 g hg; omega
  have n2 : ¬ ∃ g ∈ gs, g.length < 2 := by rintro ⟨g, hg, h⟩; have := h2 g hg; omega
  rw [if_neg (by omega), if_neg n1, if_neg n2,
    optMapM_some (g := meanLen) fun g hg => circR_meanLen (by rintro rfl; have := h2 _ hg; simp at this),
    circR_meanLen (flatten_ne hk h2)]

private lemma ns_cast (gs : List (List ℝ)) (f : ℝ → ℝ) :
    ((gs.map List.length).map fun n : ℕ => f (n : ℝ)) = gs.map fun g => f g.length := by
  rw [List.map_map]; rfl

open Classical in
private lemma ekLarge_eq (gs : List (List ℝ)) (h2 : ∀ g ∈ gs, 2 ≤ g.length) (hne : gs ≠ []) :
    ekLarge (gs.map List.length) (gs.map meanLen) =
      if ∃ g ∈ gs, OneDirection g then .error .valueError else .ok (bartlett gs dfOf dispOf / bartlettC gs) := by
  have hR : List.zipWith (fun (r : ℝ) (n : ℕ) => r * (n : ℝ)) (gs.map meanLen) (gs.map List.length)
      = gs.map fun g => ‖resultant g‖ := by
    rw [zipWith_map_same]
    refine List.map_congr_left fun g hg => ?_
    have : (g.length : ℝ) ≠ 0 := by
      have : 0 < g.length := by have := h2 g hg; omega
      positivity
    rw [meanLen, div_mul_cancel₀ _ this]
  have hres : List.zipWith (fun (n : ℕ) (R : ℝ) => (n : ℝ) - R) (gs.map List.length) (gs.map fun g => ‖resultant g‖)
      = gs.map dispOf := zipWith_map_same _ _ _ _
  have htot : (gs.map fun g => (g.length : ℝ)).sum - (gs.map fun g => ‖resultant g‖).sum = (gs.map dispOf).sum := by
    clear h2 hne hR hres
    induction gs with
    | nil => simp
    | cons g gs ih => simp only [List.map_cons, List.sum_cons, ← ih, dispOf]; ring
  have hv : (gs.map fun g => (g.length : ℝ)).sum - (gs.length : ℝ) = (gs.map dfOf).sum := by
    clear h2 hne hR hres htot
    induction gs with
    | nil => simp
    | cons g gs ih => simp only [List.map_cons, List.sum_cons, ← ih, dfOf, List.length_cons]; push_cast; ring
  have hone : (∃ x ∈ gs.map dispOf, x ≤ 0) ↔ ∃ g ∈ gs, OneDirection g := by
    constructor
    · rintro ⟨x, hx, h0⟩
      obtain ⟨g, hg, rfl⟩ := List.mem_map.1 hx
      refine ⟨g, hg, ?_⟩
      by_contra hc
      have := norm_resultant_lt_length hc
      unfold dispOf at h0; linarith
    · rintro ⟨g, hg, h1⟩
      refine ⟨_, List.mem_map.2 ⟨g, hg, rfl⟩, ?_⟩
      unfold dispOf
      rw [(norm_resultant_eq_length_iff g).2 h1]; simp
  unfold ekLarge
  simp only [hR, hres, ns_cast gs fun n => n, ns_cast gs fun n => n - 1, List.length_map]
  rw [htot, hv]
  by_cases h1 : ∃ g ∈ gs, OneDirection g
  · rw [if_pos (hone.2 h1), if_pos h1]
  · have hx : ∀ g ∈ gs, 0 < dispOf g := by
      intro g hg
      have := norm_resultant_lt_length (l := g) fun h => h1 ⟨g, hg, h⟩
      unfold dispOf; linarith
    rw [if_neg fun h => h1 (hone.1 h), if_neg h1, if_neg (not_le.2 (wsum_pos gs dispOf hne hx)),
      show (gs.map fun g => (g.length : ℝ) - 1) = gs.map dfOf from rfl, zipWith_map_same, List.map_map]
    unfold bartlett bartlettC
    rw [one_div_mul_eq_div]
    rfl

private lemma bartlettC_pos (gs : List (List ℝ)) (hk : 2 ≤ gs.length) (h2 : ∀ g ∈ gs, 2 ≤ g.length) : 0 < bartlettC gs := by
  have hdf : ∀ g ∈ gs, 0 < dfOf g := by
    intro g hg
    have : (2 : ℝ) ≤ g.length := by exact_mod_cast h2 g hg
    unfold dfOf; linarith
  have hk' : (2 : ℝ) ≤ gs.length := by exact_mod_cast hk
  have : 1 / (gs.map dfOf).sum ≤ (gs.map fun g => 1 / dfOf g).sum := by
    rcases gs with _ | ⟨g, gs⟩
    · simp
    have h1 := hdf g (by simp)
    have h2 : 0 ≤ (gs.map dfOf).sum := List.sum_nonneg fun y hy => by
      obtain ⟨g, hg, rfl⟩ := List.mem_map.1 hy; exact (hdf g (by simp [hg])).le
    have h3 : 0 ≤ (gs.map fun g => 1 / dfOf g).sum := List.sum_nonneg fun y hy => by
      obtain ⟨g, hg, rfl⟩ := List.mem_map.1 hy; exact (one_div_pos.2 (hdf g (by simp [hg]))).le
    simp only [List.map_cons, List.sum_cons]
    have : 1 / (dfOf g + (gs.map dfOf).sum) ≤ 1 / dfOf g := one_div_le_one_div_of_le h1 (by linarith)
    linarith
  unfold bartlettC
  have : 0 ≤ 1 / (3 * ((gs.length : ℝ) - 1)) * ((gs.map fun g => 1 / dfOf g).sum - 1 / (gs.map dfOf).sum) :=
    mul_nonneg (one_div_nonneg.2 (by linarith)) (by linarith)
  linarith

/-! ### Properties -/

/-- The regime is decided by the mean resultant length of the pooled sample, and the reported lengths
are those of the samples. The p value is the upper chi-square tail with `k - 1` degrees of freedom. -/
theorem C49_regime (gs : List (List ℝ)) (cdf : ℝ → ℕ → ℝ) (r : EqualKappaResult) (h : equalKappa gs cdf = .ok r) :
    r.rho = gs.map meanLen ∧ r.rhoAll = meanLen gs.flatten ∧ r.df = gs.length - 1 ∧
      r.pval = r.statistic.map (fun x => 1 - cdf x (gs.length - 1)) ∧
      (r.regime = "small" ↔ meanLen gs.flatten < 0.45) ∧
      (r.regime = "moderate" ↔ 0.45 ≤ meanLen gs.flatten ∧ meanLen gs.flatten ≤ 0.7) ∧
      (r.regime = "large" ↔ 0.7 < meanLen gs.flatten) := by
  have hk : 2 ≤ gs.length := by
    by_contra hc
    unfold equalKappa at h
    rw [if_pos (by omega)] at h; cases h
  have h2 : ∀ g ∈ gs, 2 ≤ g.length := by
    by_contra hc
    push Not at hc
    obtain ⟨g, hg, hlt⟩ := hc
    unfold equalKappa at h
    rw [if_neg (by omega)] at h
    split_ifs at h with h0 h1
    exact h1 ⟨g, hg, hlt⟩
  rw [equalKappa_unfold cdf hk h2] at h
  unfold ekStat at h
  by_cases h1 : meanLen gs.flatten < 0.45
  · rw [if_pos h1] at h
    cases h
    refine ⟨rfl, rfl, rfl, rfl, by simp [h1], ?_, ?_⟩
    · simp; intro hc; norm_num at h1 hc; linarith
    · simp; norm_num at h1 ⊢; linarith
  · rw [if_neg h1] at h
    rw [not_lt] at h1
    by_cases h3 : meanLen gs.flatten ≤ 0.7
    · rw [if_pos ⟨h1, h3⟩] at h
      cases h
      refine ⟨rfl, rfl, rfl, rfl, ?_, ?_, ?_⟩
      · simp [h1]
      · simp [h1, h3]
      · simp [h3]
    · rw [if_neg fun h => h3 h.2] at h
      cases hl : ekLarge (gs.map List.length) (gs.map meanLen) with
      | error e => rw [hl] at h; cases h
      | ok x =>
        rw [hl] at h
        cases h
        refine ⟨rfl, rfl, rfl, rfl, ?_, ?_, ?_⟩
        · simp [h1]
        · simp [h3]
        · simp [not_le.1 h3]

/-- When the test is refused: fewer than two groups, a group of fewer than two observations, or - in
the high-concentration regime only - a group with all observations in one direction. -/
theorem C49_refused (gs : List (List ℝ)) (cdf : ℝ → ℕ → ℝ) :
    equalKappa gs cdf = .error .valueError ↔
      gs.length < 2 ∨ (∃ g ∈ gs, g.length < 2) ∨ (0.7 < meanLen gs.flatten ∧ ∃ g ∈ gs, OneDirection g) := by
  by_cases hk : gs.length < 2
  · unfold equalKappa; rw [if_pos hk]; simp [hk]
  by_cases h2 : ∃ g ∈ gs, g.length < 2
  · have : equalKappa gs cdf = .error .valueError := by
      unfold equalKappa; rw [if_neg hk]
      split_ifs
      · rfl
      · rfl
    rw [this]; exact ⟨fun _ => Or.inr (Or.inl h2), fun _ => rfl⟩
  have h2' : ∀ g ∈ gs, 2 ≤ g.length := fun g hg => by
    by_contra hc; exact h2 ⟨g, hg, by omega⟩
  have hne : gs ≠ [] := by rintro rfl; simp at hk
  rw [equalKappa_unfold cdf (by omega) h2']
  unfold ekStat
  by_cases h1 : meanLen gs.flatten < 0.45
  · rw [if_pos h1]
    simp only [Except.map, hk, h2, false_or]
    constructor
    · intro h; cases h
    · rintro ⟨h, -⟩; norm_num at h h1; linarith
  rw [if_neg h1]
  rw [not_lt] at h1
  by_cases h3 : meanLen gs.flatten ≤ 0.7
  · rw [if_pos ⟨h1, h3⟩]
    simp only [Except.map, hk, h2, false_or]
    constructor
    · intro h; cases h
    · rintro ⟨h, -⟩; linarith
  rw [if_neg fun h => h3 h.2, ekLarge_eq gs h2' hne]
  by_cases h4 : ∃ g ∈ gs, OneDirection g
  · rw [if_pos h4]
    simp only [Except.map, hk, h2, h4, not_le.1 h3]
    simp
  · rw [if_neg h4]
    simp only [Except.map, hk, h2, h4]
    simp

private lemma w_small (gs : List (List ℝ)) (h5 : ∀ g ∈ gs, 5 ≤ g.length) :
    ∀ g ∈ gs, 0 < 4 * ((g.length : ℝ) - 4) / 3 := by
  intro g hg
  have : (5 : ℝ) ≤ g.length := by exact_mod_cast h5 g hg
  linarith

/-- Scale of the low-concentration regime. -/
noncomputable def smallScale (g : List ℝ) : ℝ := arcsin (sqrt (3 / 8) * 2 * meanLen g)

/-- Scale of the intermediate regime. -/
noncomputable def moderateScale (g : List ℝ) : ℝ := arsinh ((meanLen g - 1.089) / 0.258)

private lemma sqrt_bound {x : ℝ} (h0 : 0 ≤ x) (h : x ^ 2 ≤ 2 / 3) :
    0 ≤ sqrt (3 / 8) * 2 * x ∧ sqrt (3 / 8) * 2 * x ≤ 1 := by
  refine ⟨by positivity, ?_⟩
  have h1 : (sqrt (3 / 8) * 2 * x) ^ 2 ≤ 1 := by
    rw [mul_pow, mul_pow, sq_sqrt (by norm_num)]; linarith
  nlinarith [sqrt_nonneg (3 / 8 : ℝ), mul_nonneg (mul_nonneg (sqrt_nonneg (3 / 8 : ℝ)) (by norm_num : (0:ℝ) ≤ 2)) h0]

private lemma meanLen_nonneg (g : List ℝ) : 0 ≤ meanLen g := by unfold meanLen; positivity

/-- Low concentration, groups of at least five: as long as no group is too concentrated for the arcsine
(`r² ≤ 2/3`), the statistic is the weighted sum of squares of the transformed lengths; it is
non-negative, and zero exactly when all groups have the same mean resultant length. -/
theorem C49_small (gs : List (List ℝ)) (cdf : ℝ → ℕ → ℝ) (r : EqualKappaResult) (h : equalKappa gs cdf = .ok r)
    (hr : meanLen gs.flatten < 0.45) (h5 : ∀ g ∈ gs, 5 ≤ g.length) (hs : ∀ g ∈ gs, meanLen g ^ 2 ≤ 2 / 3) :
    ∃ x, r.statistic = some x ∧ x = wss gs (fun g => 4 * ((g.length : ℝ) - 4) / 3) smallScale ∧ 0 ≤ x ∧
      (x = 0 ↔ ∀ g ∈ gs, ∀ g' ∈ gs, meanLen g = meanLen g') := by
  have hk : 2 ≤ gs.length := by
    by_contra hc
    rw [(C49_refused gs cdf).2 (Or.inl (by omega))] at h; cases h
  have hne : gs ≠ [] := by rintro rfl; simp at hk
  have hw := w_small gs h5
  rw [equalKappa_unfold cdf hk fun g hg => by have := h5 g hg; omega] at h
  unfold ekStat at h
  rw [if_pos hr] at h
  cases h
  have hg : (gs.map meanLen).mapM (fun r => pyarcsin (sqrt (3 / 8) * 2 * r)) = some (gs.map smallScale) := by
    rw [List.mapM_map]
    apply optMapM_some
    intro g hg
    have hb := sqrt_bound (meanLen_nonneg g) (hs g hg)
    simp only [Function.comp_apply]
    unfold pyarcsin
    rw [if_neg (by push Not; exact ⟨by linarith [hb.1], hb.2⟩)]
    rfl
  refine ⟨_, ?_, rfl, wss_nonneg _ _ _ hw, ?_⟩
  · simp only [ekSmall]
    rw [hg, Option.bind_some, ns_cast gs fun n => 4 * (n - 4) / 3, weightedDev_eq _ _ _ (wsum_pos gs _ hne hw).ne']
  · rw [wss_eq_zero _ _ _ hw]
    have hinj : ∀ g ∈ gs, ∀ g' ∈ gs, (smallScale g = smallScale g' ↔ meanLen g = meanLen g') := by
      intro g hg g' hg'
      have b := sqrt_bound (meanLen_nonneg g) (hs g hg)
      have b' := sqrt_bound (meanLen_nonneg g') (hs g' hg')
      unfold smallScale
      constructor
      · intro he
        have := injOn_arcsin (Set.mem_Icc.2 ⟨by linarith [b.1], b.2⟩) (Set.mem_Icc.2 ⟨by linarith [b'.1], b'.2⟩) he
        have hp : 0 < sqrt (3 / 8 : ℝ) * 2 := by positivity
        exact mul_left_cancel₀ hp.ne' this
      · intro he; rw [he]
    constructor
    · intro hh g hg g' hg'; exact (hinj g hg g' hg').1 (hh g hg g' hg')
    · intro hh g hg g' hg'; exact (hinj g hg g' hg').2 (hh g hg g' hg')

/-- Low concentration of the pooled sample, but a group more concentrated than `√(2/3)`: the statistic
and the p value are `nan`, without any exception. -/
theorem C49_small_nan (gs : List (List ℝ)) (cdf : ℝ → ℕ → ℝ) (hk : 2 ≤ gs.length) (h2 : ∀ g ∈ gs, 2 ≤ g.length)
    (hr : meanLen gs.flatten < 0.45) (hs : ∃ g ∈ gs, 2 / 3 < meanLen g ^ 2) :
    ∃ r, equalKappa gs cdf = .ok r ∧ r.statistic = none ∧ r.pval = none := by
  obtain ⟨g, hg, hlt⟩ := hs
  have hnone : ekSmall (gs.map List.length) (gs.map meanLen) = none := by
    unfold ekSmall
    rw [optMapM_none (List.mem_map.2 ⟨g, hg, rfl⟩)]
    · rfl
    · unfold pyarcsin
      rw [if_pos]
      right
      have h1 : 1 < (sqrt (3 / 8) * 2 * meanLen g) ^ 2 := by
        rw [mul_pow, mul_pow, sq_sqrt (by norm_num)]; linarith
      have h0 : 0 ≤ sqrt (3 / 8) * 2 * meanLen g :=
        mul_nonneg (by positivity) (meanLen_nonneg g)
      nlinarith
  rw [equalKappa_unfold cdf hk h2]
  unfold ekStat
  rw [if_pos hr, hnone]
  exact ⟨_, rfl, rfl, rfl⟩

/-- Intermediate regime, groups of at least four. -/
theorem C49_moderate (gs : List (List ℝ)) (cdf : ℝ → ℕ → ℝ) (r : EqualKappaResult) (h : equalKappa gs cdf = .ok r)
    (hr : 0.45 ≤ meanLen gs.flatten ∧ meanLen gs.flatten ≤ 0.7) (h4 : ∀ g ∈ gs, 4 ≤ g.length) :
    ∃ x, r.statistic = some x ∧ x = wss gs (fun g => ((g.length : ℝ) - 3) / 0.798) moderateScale ∧ 0 ≤ x ∧
      (x = 0 ↔ ∀ g ∈ gs, ∀ g' ∈ gs, meanLen g = meanLen g') := by
  have hk : 2 ≤ gs.length := by
    by_contra hc
    rw [(C49_refused gs cdf).2 (Or.inl (by omega))] at h; cases h
  have hne : gs ≠ [] := by rintro rfl; simp at hk
  have hw : ∀ g ∈ gs, 0 < ((g.length : ℝ) - 3) / 0.798 := by
    intro g hg
    have : (4 : ℝ) ≤ g.length := by exact_mod_cast h4 g hg
    exact div_pos (by linarith) (by norm_num)
  rw [equalKappa_unfold cdf hk fun g hg => by have := h4 g hg; omega] at h
  unfold ekStat at h
  rw [if_neg (by rw [not_lt]; exact hr.1), if_pos hr] at h
  cases h
  refine ⟨_, ?_, rfl, wss_nonneg _ _ _ hw, ?_⟩
  · simp only [ekModerate]
    rw [ns_cast gs fun n => (n - 3) / 0.798, List.map_map]
    exact weightedDev_eq _ _ _ (wsum_pos gs _ hne hw).ne'
  · rw [wss_eq_zero _ _ _ hw]
    have hinj : ∀ g g' : List ℝ, (moderateScale g = moderateScale g' ↔ meanLen g = meanLen g') := by
      intro g g'
      unfold moderateScale
      rw [arsinh_inj, div_left_inj' (by norm_num), sub_left_inj]
    simp only [hinj]

/-- High concentration: Bartlett's test on the dispersions per degree of freedom. The statistic is
non-negative, and zero exactly when all groups have the same dispersion per degree of freedom. -/
theorem C49_large (gs : List (List ℝ)) (cdf : ℝ → ℕ → ℝ) (r : EqualKappaResult) (h : equalKappa gs cdf = .ok r)
    (hr : 0.7 < meanLen gs.flatten) :
    ∃ x, r.statistic = some x ∧ x = bartlett gs dfOf dispOf / bartlettC gs ∧ 0 < bartlettC gs ∧ 0 ≤ x ∧
      (x = 0 ↔ ∀ g ∈ gs, ∀ g' ∈ gs, dispOf g / dfOf g = dispOf g' / dfOf g') := by
  have href : ¬ (gs.length < 2 ∨ (∃ g ∈ gs, g.length < 2) ∨ (0.7 < meanLen gs.flatten ∧ ∃ g ∈ gs, OneDirection g)) := by
    rw [← C49_refused gs cdf, h]; simp
  push Not at href
  obtain ⟨hk, h2, h1⟩ := href
  have h1 := h1 hr
  have hne : gs ≠ [] := by rintro rfl; simp at hk
  have hC := bartlettC_pos gs hk h2
  have hv : ∀ g ∈ gs, 0 < dfOf g := by
    intro g hg
    have : (2 : ℝ) ≤ g.length := by exact_mod_cast h2 g hg
    unfold dfOf; linarith
  have hx : ∀ g ∈ gs, 0 < dispOf g := by
    intro g hg
    have := norm_resultant_lt_length (l := g) (h1 g hg)
    unfold dispOf; linarith
  obtain ⟨b1, b2⟩ := bartlett_facts gs dfOf dispOf hne hv hx
  rw [equalKappa_unfold cdf hk h2] at h
  unfold ekStat at h
  rw [if_neg (by norm_num at hr ⊢; linarith), if_neg (fun h => absurd h.2 (not_le.2 hr)), ekLarge_eq gs h2 hne,
    if_neg (by push Not; exact h1)] at h
  cases h
  refine ⟨_, rfl, rfl, hC, div_nonneg b1 hC.le, ?_⟩
  rw [div_eq_zero_iff, ← b2]
  constructor
  · intro h; exact h.resolve_right hC.ne'
  · intro h; exact Or.inl h

private lemma res_pm (c t : ℝ) : ‖resultant [c - t, c + t]‖ = |2 * cos t| := by
  have : resultant [c - t, c + t] = ((2 * cos t : ℝ) : ℂ) * Complex.exp ((c : ℝ) * Complex.I) := by
    unfold resultant
    simp only [List.map_cons, List.map_nil, List.sum_cons, List.sum_nil, add_zero]
    apply Complex.ext
    · rw [Complex.add_re, exp_re, exp_re, Complex.re_ofReal_mul, exp_re, cos_sub, cos_add]; ring
    · rw [Complex.add_im, exp_im, exp_im, Complex.im_ofReal_mul, exp_im, sin_sub, sin_add]; ring
  rw [this, norm_mul, Complex.norm_exp_ofReal_mul_I, mul_one, Complex.norm_real, norm_eq_abs]

/-- With groups of two or three observations the weights are negative: the chi-square statistic of
these two groups is negative. -/
theorem C49_small_negative (cdf : ℝ → ℕ → ℝ) :
    ∃ r x, equalKappa [[0 - π / 2, 0 + π / 2], [0 - π / 3, 0 + π / 3]] cdf = .ok r ∧ r.statistic = some x ∧ x < 0 := by
  set g1 : List ℝ := [0 - π / 2, 0 + π / 2] with hg1
  set g2 : List ℝ := [0 - π / 3, 0 + π / 3] with hg2
  have m1 : meanLen g1 = 0 := by unfold meanLen; rw [hg1, res_pm]; simp
  have m2 : meanLen g2 = 1 / 2 := by unfold meanLen; rw [hg2, res_pm, cos_pi_div_three]; norm_num
  have hr1 : resultant g1 = 0 := by
    have := res_pm 0 (π / 2)
    rw [cos_pi_div_two] at this
    simpa [hg1] using this
  have hall : meanLen [g1, g2].flatten = 1 / 4 := by
    have : [g1, g2].flatten = g1 ++ g2 := by simp
    unfold meanLen
    rw [this, resultant_append, hr1, zero_add, List.length_append, hg2, res_pm, cos_pi_div_three]
    norm_num [hg1]
  rw [equalKappa_unfold cdf (by simp) (by simp [hg1, hg2])]
  unfold ekStat
  rw [if_pos (by rw [hall]; norm_num)]
  have hb := sqrt_bound (x := 1 / 2) (by norm_num) (by norm_num)
  have hpos : 0 < arcsin (sqrt (3 / 8) * 2 * (1 / 2)) := arcsin_pos.2 (by positivity)
  set A := arcsin (sqrt (3 / 8) * 2 * (1 / 2)) with hA
  have hs : ekSmall ([g1, g2].map List.length) ([g1, g2].map meanLen) = some (-(4 / 3) * A ^ 2) := by
    unfold ekSmall
    have e : ([g1, g2].map meanLen).mapM (fun r => pyarcsin (sqrt (3 / 8) * 2 * r)) = some [0, A] := by
      simp only [List.map_cons, List.map_nil, m1, m2, List.mapM_cons, List.mapM_nil]
      have e1 : pyarcsin (sqrt (3 / 8) * 2 * 0) = some 0 := by
        unfold pyarcsin; rw [if_neg (by norm_num)]; simp
      have e2 : pyarcsin (sqrt (3 / 8) * 2 * (1 / 2)) = some A := by
        unfold pyarcsin; rw [if_neg (by push Not; exact ⟨by linarith [hb.1], hb.2⟩)]
      rw [e1, e2]; rfl
    rw [e, Option.bind_some]
    unfold weightedDev pydiv
    simp only [List.map_cons, List.map_nil, hg1, hg2, List.length_cons, List.length_nil, List.sum_cons, List.sum_nil]
    norm_num
    ring
  rw [hs]
  refine ⟨_, _, rfl, rfl, ?_⟩
  have : 0 < A ^ 2 := by positivity
  linarith

/-- The hypotheses of `C49_small_nan` can be met: one group spread evenly, one concentrated. -/
example : ∃ gs : List (List ℝ), 2 ≤ gs.length ∧ (∀ g ∈ gs, 2 ≤ g.length) ∧ (∃ g ∈ gs, 2 / 3 < meanLen g ^ 2) ∧
    meanLen gs.flatten < 0.45 := by
  have m1 : resultant [0 - π / 2, 0 + π / 2] = 0 := by
    have := res_pm 0 (π / 2)
    rw [cos_pi_div_two] at this
    simpa using this
  have m2 : ‖resultant [0 - 0, 0 + 0]‖ = 2 := by rw [res_pm]; norm_num
  refine ⟨[[0 - π / 2, 0 + π / 2], [0 - π / 2, 0 + π / 2], [0 - 0, 0 + 0]], by simp, by simp,
    ⟨[0 - 0, 0 + 0], by simp, ?_⟩, ?_⟩
  · unfold meanLen; rw [m2]; norm_num
  · have : [[0 - π / 2, 0 + π / 2], [0 - π / 2, 0 + π / 2], [0 - 0, 0 + 0]].flatten
      = [0 - π / 2, 0 + π / 2] ++ ([0 - π / 2, 0 + π / 2] ++ [0 - 0, 0 + 0]) := by simp
    unfold meanLen
    rw [this, resultant_append, resultant_append, m1, zero_add, zero_add, m2]
    norm_num

/-! ### Symmetries -/

private lemma equalKappa_short {gs : List (List ℝ)} (cdf : ℝ → ℕ → ℝ) (h : gs.length < 2 ∨ ∃ g ∈ gs, g.length < 2) :
    equalKappa gs cdf = .error .valueError :=
  (C49_refused gs cdf).2 (h.imp_right Or.inl)

private lemma meanLen_turn {g g' : List ℝ} (t : ℝ) (h : List.Forall₂ (fun a b => SameDir b (a + t)) g g') :
    meanLen g' = meanLen g := by
  unfold meanLen
  rw [norm_resultant_rotate t h, h.length_eq]

/-- Every sample turned by an angle of its own. -/
private lemma turn_lists {gs hs : List (List ℝ)}
    (h : List.Forall₂ (fun g g' => ∃ t, List.Forall₂ (fun a b => SameDir b (a + t)) g g') gs hs) :
    hs.map List.length = gs.map List.length ∧ hs.map meanLen = gs.map meanLen := by
  induction h with
  | nil => exact ⟨rfl, rfl⟩
  | cons hab _ ih =>
    obtain ⟨t, ht⟩ := hab
    simp only [List.map_cons, ih.1, ih.2, meanLen_turn t ht, ht.length_eq, and_self]

private lemma short_iff {gs hs : List (List ℝ)} (h : hs.map List.length = gs.map List.length) :
    (hs.length < 2 ∨ ∃ g ∈ hs, g.length < 2) ↔ (gs.length < 2 ∨ ∃ g ∈ gs, g.length < 2) := by
  have h1 : hs.length = gs.length := by simpa using congrArg List.length h
  have h2 : ∀ l : List (List ℝ), (∃ g ∈ l, g.length < 2) ↔ ∃ n ∈ l.map List.length, n < 2 := fun l => by simp
  rw [h1, h2, h2, h]

/-- Turning all observations by the same angle (whole turns of single observations allowed) changes nothing. -/
theorem C49_rotate (gs hs : List (List ℝ)) (t : ℝ) (cdf : ℝ → ℕ → ℝ)
    (h : List.Forall₂ (List.Forall₂ fun a b => SameDir b (a + t)) gs hs) : equalKappa hs cdf = equalKappa gs cdf := by
  have hfl : List.Forall₂ (fun a b => SameDir b (a + t)) gs.flatten hs.flatten := by
    induction h with
    | nil => exact .nil
    | cons hab _ ih => simp only [List.flatten_cons]; exact List.rel_append hab ih
  obtain ⟨h1, h2⟩ := turn_lists (h.imp fun _ _ hg => ⟨t, hg⟩)
  by_cases hs' : gs.length < 2 ∨ ∃ g ∈ gs, g.length < 2
  · rw [equalKappa_short cdf hs', equalKappa_short cdf ((short_iff h1).2 hs')]
  · have hs'' := mt (short_iff h1).1 hs'
    push Not at hs' hs''
    rw [equalKappa_unfold cdf hs'.1 hs'.2, equalKappa_unfold cdf hs''.1 hs''.2, h1, h2, meanLen_turn t hfl, h.length_eq]

/-- Turning every sample by an angle of its own does not change the concentrations that are compared, and the
statistic and p value stay the same if the pooled sample remains in the same regime. -/
theorem C49_turn_same_regime (gs hs : List (List ℝ)) (cdf : ℝ → ℕ → ℝ) (r r' : EqualKappaResult)
    (h : List.Forall₂ (fun g g' => ∃ t, List.Forall₂ (fun a b => SameDir b (a + t)) g g') gs hs)
    (hr : equalKappa gs cdf = .ok r) (hr' : equalKappa hs cdf = .ok r') (hreg : r.regime = r'.regime) :
    r'.rho = r.rho ∧ r'.kappa = r.kappa ∧ r'.statistic = r.statistic ∧ r'.pval = r.pval := by
  obtain ⟨h1, h2⟩ := turn_lists h
  by_cases hs' : gs.length < 2 ∨ ∃ g ∈ gs, g.length < 2
  · rw [equalKappa_short cdf hs'] at hr; cases hr
  have hs'' := mt (short_iff h1).1 hs'
  push Not at hs' hs''
  rw [equalKappa_unfold cdf hs'.1 hs'.2] at hr
  rw [equalKappa_unfold cdf hs''.1 hs''.2, h1, h2, ← h.length_eq] at hr'
  unfold ekStat at hr hr'
  cases hL : ekLarge (gs.map List.length) (gs.map meanLen) with
  | error e =>
    rw [hL] at hr hr'
    split_ifs at hr hr' <;> cases hr <;> cases hr' <;> simp_all
  | ok x =>
    rw [hL] at hr hr'
    split_ifs at hr hr' <;> cases hr <;> cases hr' <;> simp_all

/-- The order in which the samples are listed changes neither the refusal nor the regime, statistic and p value. -/
theorem C49_order (gs hs : List (List ℝ)) (cdf : ℝ → ℕ → ℝ) (h : gs.Perm hs) :
    (equalKappa hs cdf).map (fun r => (r.kappaAll, r.rhoAll, r.df, r.statistic, r.pval, r.regime))
      = (equalKappa gs cdf).map fun r => (r.kappaAll, r.rhoAll, r.df, r.statistic, r.pval, r.regime) := by
  have hl : hs.length = gs.length := h.length_eq.symm
  by_cases hs' : gs.length < 2 ∨ ∃ g ∈ gs, g.length < 2
  · rw [equalKappa_short cdf hs', equalKappa_short cdf (by simpa only [hl, ← h.mem_iff] using hs')]
  have hs'' : ¬ (hs.length < 2 ∨ ∃ g ∈ hs, g.length < 2) := by simpa only [hl, ← h.mem_iff] using hs'
  push Not at hs' hs''
  have hm : meanLen hs.flatten = meanLen gs.flatten := by
    unfold meanLen
    rw [resultant_perm h.symm.flatten, h.symm.flatten.length_eq]
  have hsum : ∀ f : List ℝ → ℝ, (hs.map f).sum = (gs.map f).sum := fun f => (h.symm.map f).sum_eq
  have hdev : ∀ w x : List ℝ → ℝ, weightedDev (hs.map w) (hs.map x) = weightedDev (gs.map w) (gs.map x) := fun w x => by
    unfold weightedDev
    simp only [zipWith_map_same, hsum]
  have hstat : ekStat (hs.map List.length) (hs.map meanLen) (meanLen hs.flatten)
      = ekStat (gs.map List.length) (gs.map meanLen) (meanLen gs.flatten) := by
    have e1 : ekSmall (hs.map List.length) (hs.map meanLen) = ekSmall (gs.map List.length) (gs.map meanLen) := by
      unfold ekSmall
      by_cases hc : ∃ g ∈ gs, pyarcsin (sqrt (3 / 8) * 2 * meanLen g) = none
      · obtain ⟨g, hg, hn⟩ := hc
        rw [optMapM_none (List.mem_map.2 ⟨g, hg, rfl⟩) hn, optMapM_none (List.mem_map.2 ⟨g, h.mem_iff.1 hg, rfl⟩) hn]
        rfl
      · push Not at hc
        have hv : ∀ l : List (List ℝ), (∀ g ∈ l, pyarcsin (sqrt (3 / 8) * 2 * meanLen g) ≠ none) →
            (l.map meanLen).mapM (fun r => pyarcsin (sqrt (3 / 8) * 2 * r))
              = some (l.map fun g => arcsin (sqrt (3 / 8) * 2 * meanLen g)) := fun l hl => by
          rw [optMapM_some (g := fun r => arcsin (sqrt (3 / 8) * 2 * r)), List.map_map]
          · rfl
          · intro r hr
            obtain ⟨g, hg, rfl⟩ := List.mem_map.1 hr
            have := hl g hg
            unfold pyarcsin at this ⊢
            split_ifs at this ⊢
            · exact absurd rfl this
            · rfl
        rw [hv gs hc, hv hs fun g hg => hc g (h.mem_iff.2 hg), Option.bind_some, Option.bind_some,
          ns_cast hs fun n => 4 * (n - 4) / 3, ns_cast gs fun n => 4 * (n - 4) / 3, hdev]
    have e2 : ekModerate (hs.map List.length) (hs.map meanLen) = ekModerate (gs.map List.length) (gs.map meanLen) := by
      unfold ekModerate
      rw [ns_cast hs fun n => (n - 3) / 0.798, ns_cast gs fun n => (n - 3) / 0.798, List.map_map, List.map_map, hdev]
    have e3 : ekLarge (hs.map List.length) (hs.map meanLen) = ekLarge (gs.map List.length) (gs.map meanLen) := by
      have hne : gs ≠ [] := by rintro rfl; simp at hs'
      have hne' : hs ≠ [] := by rintro rfl; simp at hs''
      classical
      rw [ekLarge_eq gs hs'.2 hne, ekLarge_eq hs hs''.2 hne']
      have hb : bartlett hs dfOf dispOf / bartlettC hs = bartlett gs dfOf dispOf / bartlettC gs := by
        unfold bartlett bartlettC
        simp only [hsum, hl]
      simp only [hb, ← h.mem_iff]
    unfold ekStat
    rw [e1, e2, e3, hm]
  rw [equalKappa_unfold cdf hs'.1 hs'.2, equalKappa_unfold cdf hs''.1 hs''.2, hstat, hm, hl]
  cases ekStat (gs.map List.length) (gs.map meanLen) (meanLen gs.flatten) <;> rfl

/-- Whether samples are equally concentrated should not depend on where they point, but the regime is taken from the
pooled sample. Two copies of a sample with squared mean resultant length above 2/3 are found equally concentrated
(statistic 0); if one copy is turned to the opposite direction, the statistic and the p value are `nan`. -/
theorem C49_turn_fails (g : List ℝ) (cdf : ℝ → ℕ → ℝ) (h2 : 2 ≤ g.length) (hm : 2 / 3 < meanLen g ^ 2)
    (h1 : ¬ OneDirection g) :
    (∃ r, equalKappa [g, g] cdf = .ok r ∧ r.statistic = some 0 ∧ r.pval = some (1 - cdf 0 1)) ∧
    ∃ r, equalKappa [g, g.map (· + π)] cdf = .ok r ∧ r.statistic = none ∧ r.pval = none := by
  have hg0 : (0 : ℝ) < g.length := by have : 0 < g.length := by omega
                                      exact_mod_cast this
  have hm0 : 0 ≤ meanLen g := div_nonneg (norm_nonneg _) hg0.le
  have h7 : 0.7 < meanLen g := by nlinarith
  constructor
  · have hpool : meanLen [g, g].flatten = meanLen g := by
      unfold meanLen
      rw [show [g, g].flatten = g ++ g by simp, resultant_append, ← two_mul, norm_mul, List.length_append]
      push_cast
      rw [Complex.norm_ofNat]
      field_simp
      ring
    have href : equalKappa [g, g] cdf ≠ .error .valueError := fun h => by
      rcases (C49_refused [g, g] cdf).1 h with h | ⟨x, hx, hl⟩ | ⟨-, x, hx, ho⟩
      · simp at h
      · simp at hx; subst hx; omega
      · simp at hx; subst hx; exact h1 ho
    obtain ⟨r, hr⟩ : ∃ r, equalKappa [g, g] cdf = .ok r := by
      cases h : equalKappa [g, g] cdf with
      | ok r => exact ⟨r, rfl⟩
      | error e =>
        exfalso
        rw [equalKappa_unfold cdf (by simp) (by simpa using h2)] at h href
        unfold ekStat at h href
        rw [hpool, if_neg (by linarith), if_neg (by push Not; intro; linarith)] at h href
        classical
        rw [ekLarge_eq [g, g] (by simpa using h2) (by simp), if_neg (by simpa using h1)] at h
        cases h
    obtain ⟨x, hx, -, -, -, h0⟩ := C49_large [g, g] cdf r hr (by rw [hpool]; exact h7)
    have hx0 : x = 0 := h0.2 fun a ha b hb => by
      simp at ha hb
      rw [ha, hb]
    obtain ⟨-, -, -, hp, -⟩ := C49_regime [g, g] cdf r hr
    refine ⟨r, hr, by rw [hx, hx0], ?_⟩
    rw [hp, hx, hx0]
    rfl
  · have hpi : resultant (g.map (· + π)) = -resultant g := by
      rw [resultant_rotate (a := g) π, Complex.exp_pi_mul_I, neg_one_mul]
      rw [List.forall₂_map_right_iff]
      exact List.forall₂_same.2 fun a _ => ⟨0, by simp⟩
    have hpool : meanLen [g, g.map (· + π)].flatten = 0 := by
      unfold meanLen
      rw [show [g, g.map (· + π)].flatten = g ++ g.map (· + π) by simp, resultant_append, hpi]
      simp
    exact C49_small_nan [g, g.map (· + π)] cdf (by simp) (by simpa using h2) (by rw [hpool]; norm_num)
      ⟨g, by simp, hm⟩

/-- A sample of that kind: two observations 60 degrees apart. -/
example : 2 / 3 < meanLen [0 - π / 6, 0 + π / 6] ^ 2 ∧ ¬ OneDirection [0 - π / 6, 0 + π / 6] := by
  have h3 : (sqrt 3) ^ 2 = 3 := sq_sqrt (by norm_num)
  have hr := res_pm 0 (π / 6)
  rw [cos_pi_div_six, abs_of_pos (by positivity)] at hr
  constructor
  · unfold meanLen
    rw [hr]
    simp only [List.length_cons, List.length_nil]
    norm_num
    rw [div_pow, h3]; norm_num
  · intro h
    have := (norm_resultant_eq_length_iff _).2 h
    rw [hr] at this
    simp only [List.length_cons, List.length_nil] at this
    norm_num at this
    rw [show sqrt 3 = 2 by linarith] at h3
    norm_num at h3

end Verif.Props
