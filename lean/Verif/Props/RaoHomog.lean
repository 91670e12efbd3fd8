import Verif.Props.Concentration

/-!
# C46: Rao's test of homogeneity
-/

set_option autoImplicit false

namespace Verif.Props

open Real Verif Verif.Spec

/-- Average of a function over a sample. -/
noncomputable def avg (l : List ℝ) (f : ℝ → ℝ) : ℝ := (l.map f).sum / l.length

/-- Sample variance (denominator `n - 1`) of a function of the observations. -/
noncomputable def svar (l : List ℝ) (f : ℝ → ℝ) : ℝ :=
  (l.map fun a => (f a - avg l f) ^ 2).sum / ((l.length : ℝ) - 1)

/-- Tangent of the mean direction of a sample. -/
noncomputable def tanMean (l : List ℝ) : ℝ := avg l sin / avg l cos

/-- Estimated variance of the tangent of the mean direction (delta method). -/
noncomputable def tanVar (l : List ℝ) : ℝ :=
  svar l (fun a => sin a - tanMean l * cos a) / (l.length * avg l cos ^ 2)

/-- Squared mean resultant length. -/
noncomputable def sqLen (l : List ℝ) : ℝ := avg l cos ^ 2 + avg l sin ^ 2

/-- Estimated variance of the squared mean resultant length (delta method). -/
noncomputable def sqLenVar (l : List ℝ) : ℝ :=
  4 * svar l (fun a => avg l cos * cos a + avg l sin * sin a) / l.length

/-- Weighted mean of `x` over groups, each weighted with the inverse of its variance `v`. -/
noncomputable def invVarMean (gs : List (List ℝ)) (x v : List ℝ → ℝ) : ℝ :=
  (gs.map fun g => x g / v g).sum / (gs.map fun g => 1 / v g).sum

/-- Weighted sum of squares of `x` about its weighted mean. -/
noncomputable def heterogeneity (gs : List (List ℝ)) (x v : List ℝ → ℝ) : ℝ :=
  (gs.map fun g => (x g - invVarMean gs x v) ^ 2 / v g).sum

private lemma avg_lin (l : List ℝ) (f g : ℝ → ℝ) (p q : ℝ) :
    avg l (fun a => p * f a + q * g a) = p * avg l f + q * avg l g := by
  have : (l.map fun a => p * f a + q * g a).sum = p * (l.map f).sum + q * (l.map g).sum := by
    induction l with
    | nil => simp
    | cons a l ih => simp only [List.map_cons, List.sum_cons, ih]; ring
  unfold avg
  rw [this]; ring

/-- Sample covariance of two functions of the observations. -/
private noncomputable def scov (l : List ℝ) (f g : ℝ → ℝ) : ℝ :=
  (l.map fun a => (f a - avg l f) * (g a - avg l g)).sum / ((l.length : ℝ) - 1)

private lemma svar_lin (l : List ℝ) (f g : ℝ → ℝ) (p q : ℝ) :
    svar l (fun a => p * f a + q * g a)
      = p ^ 2 * scov l f f + q ^ 2 * scov l g g + 2 * p * q * scov l f g := by
  have key : ∀ A B : ℝ, (l.map fun a => (p * f a + q * g a - (p * A + q * B)) ^ 2).sum
      = p ^ 2 * (l.map fun a => (f a - A) * (f a - A)).sum + q ^ 2 * (l.map fun a => (g a - B) * (g a - B)).sum
        + 2 * p * q * (l.map fun a => (f a - A) * (g a - B)).sum := by
    intro A B
    induction l with
    | nil => simp
    | cons a l ih => simp only [List.map_cons, List.sum_cons, ih]; ring
  unfold svar scov
  rw [avg_lin, key]; ring

private lemma mean_map (l : List ℝ) (f : ℝ → ℝ) (h : 2 ≤ l.length) : mean (l.map f) = some (avg l f) := by
  have : ((l.length : ℕ) : ℝ) ≠ 0 := by
    have : 0 < l.length := by omega
    positivity
  unfold mean pydiv avg
  rw [List.length_map, if_neg this]

private lemma cov1_map (l : List ℝ) (f g : ℝ → ℝ) (h : 2 ≤ l.length) :
    cov1 (l.map f) (l.map g) = some (scov l f g) := by
  have h2 : (2 : ℝ) ≤ l.length := by exact_mod_cast h
  have hz : ∀ A B : ℝ, List.zipWith (fun a b => (a - A) * (b - B)) (l.map f) (l.map g)
      = l.map fun a => (f a - A) * (g a - B) := by
    intro A B
    clear h h2
    induction l with
    | nil => rfl
    | cons a l ih => simp only [List.map_cons, List.zipWith_cons_cons, ih]
  unfold cov1
  rw [mean_map l f h, mean_map l g h]
  simp only [Option.bind_some]
  rw [hz, List.length_map]
  unfold pydiv scov
  rw [if_neg (by linarith)]

private lemma raoMoments_eq (l : List ℝ) (h : 2 ≤ l.length) : raoMoments l
    = some ⟨avg l cos, avg l sin, scov l cos cos, scov l sin sin, scov l cos sin⟩ := by
  unfold raoMoments
  rw [mean_map l _ h, mean_map l _ h, cov1_map l _ _ h, cov1_map l _ _ h, cov1_map l _ _ h]
  rfl

private lemma raoPolar_eq (l : List ℝ) (h : 2 ≤ l.length) (hc : avg l cos ≠ 0) :
    raoPolar l = some (tanMean l, tanVar l) := by
  unfold raoPolar
  rw [raoMoments_eq l h]
  simp only [Option.bind_some, pydiv, pow_eq_zero_iff, hc, if_false, ne_eq, OfNat.ofNat_ne_zero,
    not_false_eq_true, Option.map_some]
  rw [Option.some.injEq, Prod.mk.injEq]
  refine ⟨rfl, ?_⟩
  have hf : (fun a => sin a - tanMean l * cos a) = fun a => (-tanMean l) * cos a + 1 * sin a := by
    funext a; ring
  unfold tanVar
  rw [hf, svar_lin]
  have hn : (l.length : ℝ) ≠ 0 := by
    have : 0 < l.length := by omega
    positivity
  unfold tanMean
  field_simp
  ring

private lemma raoDisp_eq (l : List ℝ) (h : 2 ≤ l.length) :
    raoDisp l = some (sqLen l, sqLenVar l) := by
  unfold raoDisp
  rw [raoMoments_eq l h, Option.map_some]
  unfold sqLenVar
  rw [svar_lin, Option.some.injEq, Prod.mk.injEq]
  exact ⟨rfl, by ring⟩

private lemma raoH_eq (gs : List (List ℝ)) (x v : List ℝ → ℝ) (hne : gs ≠ []) (hv : ∀ g ∈ gs, 0 < v g) :
    raoH (gs.map fun g => (x g, v g)) = some (heterogeneity gs x v) := by
  have hm : ∀ (F : ℝ × ℝ → ℝ), ((gs.map fun g => (x g, v g)).mapM fun p => pydiv (F p) p.2)
      = some (gs.map fun g => F (x g, v g) / v g) := by
    intro F
    rw [optMapM_some (g := fun p => F p / p.2), List.map_map]
    · rfl
    · intro p hp
      obtain ⟨g, hg, rfl⟩ := List.mem_map.1 hp
      unfold pydiv
      rw [if_neg (hv g hg).ne']
  have hsum : 0 < (gs.map fun g => 1 / v g).sum := by
    apply List.sum_pos
    · intro y hy
      obtain ⟨g, hg, rfl⟩ := List.mem_map.1 hy
      exact one_div_pos.2 (hv g hg)
    · simpa using hne
  unfold raoH
  rw [hm fun p => p.1 ^ 2, hm fun p => p.1, hm fun _ => 1]
  simp only [Option.bind_some, pydiv]
  rw [if_neg hsum.ne', Option.map_some, Option.some.injEq]
  have := weighted_ss gs (fun g => 1 / v g) x hsum.ne'
  have e1 : (gs.map fun g => 1 / v g * x g ^ 2) = gs.map fun g => x g ^ 2 / v g :=
    List.map_congr_left fun g _ => by ring
  have e2 : (gs.map fun g => 1 / v g * x g) = gs.map fun g => x g / v g :=
    List.map_congr_left fun g _ => by ring
  rw [e1, e2] at this
  rw [this]
  unfold heterogeneity invVarMean
  congr 1
  exact List.map_congr_left fun g _ => by ring

private lemma heterogeneity_nonneg (gs : List (List ℝ)) (x v : List ℝ → ℝ) (hv : ∀ g ∈ gs, 0 < v g) :
    0 ≤ heterogeneity gs x v := by
  unfold heterogeneity
  apply List.sum_nonneg
  intro y hy
  obtain ⟨g, hg, rfl⟩ := List.mem_map.1 hy
  exact div_nonneg (sq_nonneg _) (hv g hg).le

private lemma heterogeneity_eq_zero (gs : List (List ℝ)) (x v : List ℝ → ℝ) (hv : ∀ g ∈ gs, 0 < v g) :
    heterogeneity gs x v = 0 ↔ ∀ g ∈ gs, ∀ g' ∈ gs, x g = x g' := by
  constructor
  · intro h g hg g' hg'
    have hall := all_zero_of_sum_eq_zero (l := gs.map fun g => (x g - invVarMean gs x v) ^ 2 / v g)
      (by
        intro y hy
        obtain ⟨g, hg, rfl⟩ := List.mem_map.1 hy
        exact div_nonneg (sq_nonneg _) (hv g hg).le) h
    have key : ∀ g ∈ gs, x g = invVarMean gs x v := by
      intro g hg
      have := hall _ (List.mem_map.2 ⟨g, hg, rfl⟩)
      rw [div_eq_zero_iff] at this
      have h0 : (x g - invVarMean gs x v) ^ 2 = 0 := this.resolve_right (hv g hg).ne'
      have := pow_eq_zero_iff (two_ne_zero) |>.1 h0
      linarith
    rw [key g hg, key g' hg']
  · intro h
    rcases gs with _ | ⟨g0, gs⟩
    · simp [heterogeneity]
    have hx : ∀ g ∈ g0 :: gs, x g = x g0 := fun g hg => h g hg g0 (by simp)
    have hsum : 0 < ((g0 :: gs).map fun g => 1 / v g).sum := by
      apply List.sum_pos
      · intro y hy
        obtain ⟨g, hg, rfl⟩ := List.mem_map.1 hy
        exact one_div_pos.2 (hv g hg)
      · simp
    have hm : invVarMean (g0 :: gs) x v = x g0 := by
      unfold invVarMean
      have : ((g0 :: gs).map fun g => x g / v g) = ((g0 :: gs).map fun g => x g0 * (1 / v g)) :=
        List.map_congr_left fun g hg => by rw [hx g hg]; ring
      rw [this, List.sum_map_mul_left]
      field_simp
    unfold heterogeneity
    rw [hm]
    have : ((g0 :: gs).map fun g => (x g - x g0) ^ 2 / v g) = (g0 :: gs).map fun _ => (0 : ℝ) :=
      List.map_congr_left fun g hg => by rw [hx g hg]; simp
    rw [this]
    simp

/-- Equality of mean directions: with at least two observations per sample, no mean cosine zero and
positive variances, the statistic is the weighted sum of squares of the tangents of the mean directions
about their weighted mean. It is non-negative, and zero exactly when the tangents agree. -/
theorem C46_polar (gs : List (List ℝ)) (alpha : ℝ) (cdf ppf : ℝ → ℕ → ℝ) (hne : gs ≠ [])
    (h2 : ∀ g ∈ gs, 2 ≤ g.length) (hc : ∀ g ∈ gs, avg g cos ≠ 0) (hv : ∀ g ∈ gs, 0 < tanVar g) :
    (raoHomogeneity gs alpha cdf ppf).hPolar = some (heterogeneity gs tanMean tanVar) ∧
      0 ≤ heterogeneity gs tanMean tanVar ∧
      (heterogeneity gs tanMean tanVar = 0 ↔ ∀ g ∈ gs, ∀ g' ∈ gs, tanMean g = tanMean g') := by
  refine ⟨?_, heterogeneity_nonneg gs _ _ hv, heterogeneity_eq_zero gs _ _ hv⟩
  unfold raoHomogeneity
  simp only
  rw [optMapM_some (g := fun g => (tanMean g, tanVar g)) fun g hg => raoPolar_eq g (h2 g hg) (hc g hg),
    Option.bind_some, raoH_eq gs _ _ hne hv]

/-- Equality of dispersions: the same with the squared mean resultant lengths. -/
theorem C46_disp (gs : List (List ℝ)) (alpha : ℝ) (cdf ppf : ℝ → ℕ → ℝ) (hne : gs ≠ [])
    (h2 : ∀ g ∈ gs, 2 ≤ g.length) (hv : ∀ g ∈ gs, 0 < sqLenVar g) :
    (raoHomogeneity gs alpha cdf ppf).hDisp = some (heterogeneity gs sqLen sqLenVar) ∧
      0 ≤ heterogeneity gs sqLen sqLenVar ∧
      (heterogeneity gs sqLen sqLenVar = 0 ↔ ∀ g ∈ gs, ∀ g' ∈ gs, sqLen g = sqLen g') := by
  refine ⟨?_, heterogeneity_nonneg gs _ _ hv, heterogeneity_eq_zero gs _ _ hv⟩
  unfold raoHomogeneity
  simp only
  rw [optMapM_some (g := fun g => (sqLen g, sqLenVar g)) fun g hg => raoDisp_eq g (h2 g hg),
    Option.bind_some, raoH_eq gs _ _ hne hv]

/-- Decisions: each hypothesis is rejected exactly when its statistic exceeds the critical value of the
chi-square distribution with one degree of freedom fewer than samples; the p value is the upper tail. -/
theorem C46_decision (gs : List (List ℝ)) (alpha : ℝ) (cdf ppf : ℝ → ℕ → ℝ) :
    let r := raoHomogeneity gs alpha cdf ppf
    (∀ H, r.hPolar = some H → r.pvalPolar = some (1 - cdf H (gs.length - 1)) ∧
      (r.rejectPolar = true ↔ ppf (1 - alpha) (gs.length - 1) < H)) ∧
    (∀ H, r.hDisp = some H → r.pvalDisp = some (1 - cdf H (gs.length - 1)) ∧
      (r.rejectDisp = true ↔ ppf (1 - alpha) (gs.length - 1) < H)) := by
  unfold raoHomogeneity
  simp only
  refine ⟨fun H h => ?_, fun H h => ?_⟩ <;> rw [h] <;> simp [exceeds]

private lemma avg_add_pi (l : List ℝ) : avg (l.map (· + π)) cos = -avg l cos ∧
    avg (l.map (· + π)) sin = -avg l sin := by
  have h1 : (l.map fun a => cos (a + π)).sum = -(l.map cos).sum := by
    induction l with
    | nil => simp
    | cons a l ih => rw [List.map_cons, List.sum_cons, ih, List.map_cons, List.sum_cons, cos_add_pi]; ring
  have h2 : (l.map fun a => sin (a + π)).sum = -(l.map sin).sum := by
    clear h1
    induction l with
    | nil => simp
    | cons a l ih => rw [List.map_cons, List.sum_cons, ih, List.map_cons, List.sum_cons, sin_add_pi]; ring
  unfold avg
  rw [List.map_map, List.map_map, List.length_map]
  exact ⟨by rw [← neg_div, ← h1]; rfl, by rw [← neg_div, ← h2]; rfl⟩

private lemma scov_add_pi (l : List ℝ) : scov (l.map (· + π)) cos cos = scov l cos cos ∧
    scov (l.map (· + π)) sin sin = scov l sin sin ∧ scov (l.map (· + π)) cos sin = scov l cos sin := by
  unfold scov
  simp only [avg_add_pi, List.map_map, List.length_map]
  refine ⟨?_, ?_, ?_⟩ <;>
  · congr 2
    refine List.map_congr_left fun a _ => ?_
    simp only [Function.comp_apply, cos_add_pi, sin_add_pi]
    ring

/-- The test of mean directions cannot tell a direction from its opposite: turning any sample by half a
turn leaves its contribution, hence the statistic, unchanged. -/
theorem C46_antipodal (pre post : List (List ℝ)) (g : List ℝ) (alpha : ℝ) (cdf ppf : ℝ → ℕ → ℝ)
    (h2 : 2 ≤ g.length) :
    (raoHomogeneity (pre ++ g.map (· + π) :: post) alpha cdf ppf).hPolar
      = (raoHomogeneity (pre ++ g :: post) alpha cdf ppf).hPolar := by
  have key : raoPolar (g.map (· + π)) = raoPolar g := by
    unfold raoPolar
    rw [raoMoments_eq g h2, raoMoments_eq _ (by rw [List.length_map]; exact h2)]
    obtain ⟨a, b⟩ := avg_add_pi g
    obtain ⟨c, d, e⟩ := scov_add_pi g
    simp only [Option.bind_some, a, b, c, d, e, List.length_map, pydiv]
    by_cases hc : avg g cos = 0
    · simp [hc]
    · simp only [pow_eq_zero_iff, neg_eq_zero, hc, if_false, ne_eq, OfNat.ofNat_ne_zero,
        not_false_eq_true, Option.map_some, Option.bind_some]
      rw [Option.some.injEq, Prod.mk.injEq]
      exact ⟨by rw [neg_div_neg_eq], by field_simp⟩
  have hm : (pre ++ g.map (· + π) :: post).mapM raoPolar = (pre ++ g :: post).mapM raoPolar := by
    rw [List.mapM_append, List.mapM_append, List.mapM_cons, List.mapM_cons, key]
  unfold raoHomogeneity
  simp only [hm]

private lemma avg_rotate {l l' : List ℝ} (t : ℝ) (h : List.Forall₂ (fun a b => SameDir b (a + t)) l l') :
    avg l' cos = cos t * avg l cos - sin t * avg l sin ∧ avg l' sin = sin t * avg l cos + cos t * avg l sin := by
  have hc : (l'.map cos).sum = cos t * (l.map cos).sum - sin t * (l.map sin).sum ∧
      (l'.map sin).sum = sin t * (l.map cos).sum + cos t * (l.map sin).sum := by
    induction h with
    | nil => simp
    | cons hab _ ih =>
      obtain ⟨k, rfl⟩ := hab
      simp only [List.map_cons, List.sum_cons, ih.1, ih.2]
      rw [cos_add_int_mul_two_pi, sin_add_int_mul_two_pi, cos_add, sin_add]
      exact ⟨by ring, by ring⟩
  unfold avg
  rw [hc.1, hc.2, h.length_eq]
  exact ⟨by ring, by ring⟩

/-- The test of dispersions is invariant under turning each sample by its own angle. -/
theorem C46_disp_rotate (gs gs' : List (List ℝ)) (alpha : ℝ) (cdf ppf : ℝ → ℕ → ℝ)
    (h2 : ∀ g ∈ gs, 2 ≤ g.length)
    (h : List.Forall₂ (fun g g' => ∃ t, List.Forall₂ (fun a b => SameDir b (a + t)) g g') gs gs') :
    (raoHomogeneity gs' alpha cdf ppf).hDisp = (raoHomogeneity gs alpha cdf ppf).hDisp := by
  have key : ∀ g g' : List ℝ, 2 ≤ g.length → (∃ t, List.Forall₂ (fun a b => SameDir b (a + t)) g g') →
      raoDisp g' = raoDisp g := by
    rintro g g' hl ⟨t, ht⟩
    rw [raoDisp_eq g hl, raoDisp_eq g' (ht.length_eq ▸ hl)]
    obtain ⟨hc, hs⟩ := avg_rotate t ht
    have hcs := cos_sq_add_sin_sq t
    have e1 : sqLen g' = sqLen g := by
      unfold sqLen
      rw [hc, hs]
      linear_combination (avg g cos ^ 2 + avg g sin ^ 2) * hcs
    have e2 : ∀ A : ℝ, (g'.map fun a => (avg g' cos * cos a + avg g' sin * sin a - A) ^ 2)
        = g.map fun a => (avg g cos * cos a + avg g sin * sin a - A) ^ 2 := by
      intro A
      rw [hc, hs]
      generalize avg g cos = C at *
      generalize avg g sin = S at *
      clear hl hc hs e1
      induction ht with
      | nil => rfl
      | @cons x y _ _ hab _ ih =>
        obtain ⟨k, rfl⟩ := hab
        simp only [List.map_cons, ih]
        rw [cos_add_int_mul_two_pi, sin_add_int_mul_two_pi, cos_add, sin_add]
        congr 2
        linear_combination (C * cos x + S * sin x) * hcs
    have e3 : avg g' (fun a => avg g' cos * cos a + avg g' sin * sin a)
        = avg g (fun a => avg g cos * cos a + avg g sin * sin a) := by
      rw [avg_lin, avg_lin, ← sq, ← sq, ← sq, ← sq]; exact e1
    rw [e1]
    unfold sqLenVar svar
    rw [e3, e2, ht.length_eq]
  have hm : gs'.mapM raoDisp = gs.mapM raoDisp := by
    induction h with
    | nil => rfl
    | cons hab _ ih =>
      rw [List.mapM_cons, List.mapM_cons, key _ _ (h2 _ (by simp)) hab, ih fun g hg => h2 g (by simp [hg])]
  unfold raoHomogeneity
  simp only [hm]

/-- The hypotheses of `C46_polar` and `C46_disp` can be met. -/
example : (2 ≤ [0, π / 2].length ∧ avg [0, π / 2] cos ≠ 0 ∧ 0 < tanVar [0, π / 2]) ∧
    0 < sqLenVar [0, π / 3, -(π / 3)] := by
  refine ⟨⟨by simp, by simp [avg], ?_⟩, ?_⟩
  · norm_num [tanVar, svar, tanMean, avg]
  · norm_num [sqLenVar, svar, avg]

/-! ### Order of the samples and turning all of them -/

private lemma mapM_perm {α β : Type} (f : α → Option β) {l l' : List α} (h : l.Perm l') :
    (l.mapM f = none ∧ l'.mapM f = none) ∨ ∃ m m', l.mapM f = some m ∧ l'.mapM f = some m' ∧ m.Perm m' := by
  by_cases hn : ∃ a ∈ l, f a = none
  · obtain ⟨a, ha, hf⟩ := hn
    exact Or.inl ⟨optMapM_none ha hf, optMapM_none (h.mem_iff.1 ha) hf⟩
  · push Not at hn
    rcases l with _ | ⟨a0, l⟩
    · rw [List.nil_perm.1 h]
      exact Or.inr ⟨[], [], rfl, rfl, .refl _⟩
    · obtain ⟨b0, hb0⟩ := Option.ne_none_iff_exists'.1 (hn a0 (by simp))
      have hg : ∀ a ∈ a0 :: l, f a = some ((f a).getD b0) := fun a ha => by
        obtain ⟨b, hb⟩ := Option.ne_none_iff_exists'.1 (hn a ha)
        rw [hb]; rfl
      exact Or.inr ⟨_, _, optMapM_some (g := fun a => (f a).getD b0) hg,
        optMapM_some (g := fun a => (f a).getD b0) fun a ha => hg a (h.mem_iff.2 ha), h.map _⟩

private lemma raoH_perm {xs ys : List (ℝ × ℝ)} (h : xs.Perm ys) : raoH xs = raoH ys := by
  unfold raoH
  rcases mapM_perm (fun p : ℝ × ℝ => pydiv (p.1 ^ 2) p.2) h with ⟨e1, e2⟩ | ⟨a, a', e1, e2, ha⟩
  · rw [e1, e2]; rfl
  rw [e1, e2, Option.bind_some, Option.bind_some]
  rcases mapM_perm (fun p : ℝ × ℝ => pydiv p.1 p.2) h with ⟨e1, e2⟩ | ⟨b, b', e1, e2, hb⟩
  · rw [e1, e2]; rfl
  rw [e1, e2, Option.bind_some, Option.bind_some]
  rcases mapM_perm (fun p : ℝ × ℝ => pydiv 1 p.2) h with ⟨e1, e2⟩ | ⟨c, c', e1, e2, hc⟩
  · rw [e1, e2]; rfl
  rw [e1, e2, Option.bind_some, Option.bind_some, ha.sum_eq, hb.sum_eq, hc.sum_eq]

/-- The order in which the samples are listed does not matter. -/
theorem C46_order (gs hs : List (List ℝ)) (alpha : ℝ) (cdf ppf : ℝ → ℕ → ℝ) (h : gs.Perm hs) :
    raoHomogeneity hs alpha cdf ppf = raoHomogeneity gs alpha cdf ppf := by
  have key : ∀ f : List ℝ → Option (ℝ × ℝ), (hs.mapM f).bind raoH = (gs.mapM f).bind raoH := fun f => by
    rcases mapM_perm f h with ⟨e1, e2⟩ | ⟨a, a', e1, e2, ha⟩
    · rw [e1, e2]
    · rw [e1, e2, Option.bind_some, Option.bind_some, raoH_perm ha]
  unfold raoHomogeneity
  simp only [key, h.length_eq]

/-- Two observations at distance `d` from the direction `x`. -/
private lemma pair_facts (x d : ℝ) (hx : cos x ≠ 0) (hd : cos d ≠ 0) :
    avg [x - d, x + d] cos = cos x * cos d ∧ tanMean [x - d, x + d] = tan x ∧
      tanVar [x - d, x + d] = tan d ^ 2 / cos x ^ 4 := by
  have hc : avg [x - d, x + d] cos = cos x * cos d := by
    simp only [avg, List.map_cons, List.map_nil, List.sum_cons, List.sum_nil, List.length_cons, List.length_nil]
    rw [cos_sub, cos_add]; push_cast; ring
  have hs : avg [x - d, x + d] sin = sin x * cos d := by
    simp only [avg, List.map_cons, List.map_nil, List.sum_cons, List.sum_nil, List.length_cons, List.length_nil]
    rw [sin_sub, sin_add]; push_cast; ring
  have ht : tanMean [x - d, x + d] = tan x := by
    unfold tanMean
    rw [hs, hc, tan_eq_sin_div_cos]
    field_simp
  refine ⟨hc, ht, ?_⟩
  have e1 : sin (x - d) - tan x * cos (x - d) = -(sin d / cos x) := by
    rw [tan_eq_sin_div_cos, sin_sub, cos_sub]
    field_simp
    linear_combination (-sin d) * cos_sq_add_sin_sq x
  have e2 : sin (x + d) - tan x * cos (x + d) = sin d / cos x := by
    rw [tan_eq_sin_div_cos, sin_add, cos_add]
    field_simp
    linear_combination (sin d) * cos_sq_add_sin_sq x
  unfold tanVar svar
  rw [ht, hc]
  have e3 : avg [x - d, x + d] (fun a => sin a - tan x * cos a) = 0 := by
    simp only [avg, List.map_cons, List.map_nil, List.sum_cons, List.sum_nil, e1, e2]
    ring
  rw [e3]
  simp only [List.map_cons, List.map_nil, List.sum_cons, List.sum_nil, e1, e2, List.length_cons, List.length_nil]
  rw [tan_eq_sin_div_cos]
  push_cast
  field_simp
  ring

private lemma heterogeneity_two (g g' : List ℝ) (x v : List ℝ → ℝ) (h1 : 0 < v g) (h2 : 0 < v g') :
    heterogeneity [g, g'] x v = (x g - x g') ^ 2 / (v g + v g') := by
  simp only [heterogeneity, invVarMean, List.map_cons, List.map_nil, List.sum_cons, List.sum_nil, add_zero]
  have : 0 < v g + v g' := by linarith
  field_simp
  ring

private lemma polar_pair (x y d alpha : ℝ) (cdf ppf : ℝ → ℕ → ℝ) (hx : cos x ≠ 0) (hy : cos y ≠ 0) (hd : 0 < d)
    (hd' : d < π / 2) :
    (raoHomogeneity [[x - d, x + d], [y - d, y + d]] alpha cdf ppf).hPolar
      = some ((tan x - tan y) ^ 2 / (tan d ^ 2 / cos x ^ 4 + tan d ^ 2 / cos y ^ 4)) := by
  have hcd : cos d ≠ 0 := (cos_pos_of_mem_Ioo ⟨by linarith, hd'⟩).ne'
  have htd : 0 < tan d := tan_pos_of_pos_of_lt_pi_div_two hd hd'
  obtain ⟨a1, a2, a3⟩ := pair_facts x d hx hcd
  obtain ⟨b1, b2, b3⟩ := pair_facts y d hy hcd
  have va : 0 < tanVar [x - d, x + d] := by rw [a3]; positivity
  have vb : 0 < tanVar [y - d, y + d] := by rw [b3]; positivity
  rw [(C46_polar [[x - d, x + d], [y - d, y + d]] alpha cdf ppf (by simp) (by simp)
    (by simp only [List.mem_cons, List.not_mem_nil, or_false, forall_eq_or_imp, forall_eq, a1, b1]
        exact ⟨mul_ne_zero hx hcd, mul_ne_zero hy hcd⟩)
    (by simp only [List.mem_cons, List.not_mem_nil, or_false, forall_eq_or_imp, forall_eq]
        exact ⟨va, vb⟩)).1, heterogeneity_two _ _ _ _ va vb, a2, a3, b2, b3]

/-- Equality of the mean directions is a question about directions, so its answer should not depend on the zero
direction. It does: whatever the critical value, there are two samples, pointing to -30 and 30 degrees, whose mean
directions are found different, and found not different after all observations are turned by 30 degrees. -/
theorem C46_polar_rotate_fails (alpha : ℝ) (cdf ppf : ℝ → ℕ → ℝ) (hcrit : 0 < ppf (1 - alpha) 1) :
    ∃ g g' : List ℝ, (raoHomogeneity [g, g'] alpha cdf ppf).rejectPolar = true ∧
      (raoHomogeneity [g.map (· + π / 6), g'.map (· + π / 6)] alpha cdf ppf).rejectPolar = false := by
  obtain ⟨c, hc⟩ : ∃ c, c = ppf (1 - alpha) 1 := ⟨_, rfl⟩
  rw [← hc] at hcrit
  obtain ⟨d, hd0, hd1, hd⟩ : ∃ d, 0 < d ∧ d < π / 2 ∧ tan d ^ 2 = 1 / (4 * c) :=
    ⟨arctan (sqrt (1 / (4 * c))), arctan_pos.2 (sqrt_pos.2 (by positivity)), arctan_lt_pi_div_two _, by
      rw [tan_arctan, sq_sqrt (by positivity)]⟩
  have h3 : sqrt 3 ^ 2 = 3 := sq_sqrt (by norm_num)
  have h3p : 0 < sqrt 3 := sqrt_pos.2 (by norm_num)
  refine ⟨[-(π / 6) - d, -(π / 6) + d], [π / 6 - d, π / 6 + d], ?_, ?_⟩
  · have e := polar_pair (-(π / 6)) (π / 6) d alpha cdf ppf (by rw [cos_neg, cos_pi_div_six]; positivity)
      (by rw [cos_pi_div_six]; positivity) hd0 hd1
    obtain ⟨-, h⟩ := (C46_decision [[-(π / 6) - d, -(π / 6) + d], [π / 6 - d, π / 6 + d]] alpha cdf ppf).1 _ e
    rw [h]
    show ppf (1 - alpha) 1 < _
    rw [← hc, tan_neg, cos_neg, tan_pi_div_six, cos_pi_div_six, hd]
    have e4 : (sqrt 3 / 2) ^ 4 = 9 / 16 := by
      rw [div_pow, show sqrt 3 ^ 4 = (sqrt 3 ^ 2) ^ 2 by ring, h3]; norm_num
    have e5 : (-(1 / sqrt 3) - 1 / sqrt 3) ^ 2 = 4 / 3 := by
      rw [show -(1 / sqrt 3) - 1 / sqrt 3 = -2 / sqrt 3 by ring, div_pow, h3]; norm_num
    rw [e4, e5, lt_div_iff₀ (by positivity)]
    field_simp
    norm_num
  · have e := polar_pair 0 (π / 3) d alpha cdf ppf (by simp) (by rw [cos_pi_div_three]; norm_num) hd0 hd1
    have hl : [([-(π / 6) - d, -(π / 6) + d] : List ℝ).map (· + π / 6), [π / 6 - d, π / 6 + d].map (· + π / 6)]
        = [[0 - d, 0 + d], [π / 3 - d, π / 3 + d]] := by
      simp only [List.map_cons, List.map_nil, List.cons.injEq, and_true]
      exact ⟨⟨by ring, by ring⟩, by ring, by ring⟩
    rw [hl]
    obtain ⟨-, h⟩ := (C46_decision [[0 - d, 0 + d], [π / 3 - d, π / 3 + d]] alpha cdf ppf).1 _ e
    rw [Bool.eq_false_iff, Ne, h]
    show ¬ (ppf (1 - alpha) 1 < _)
    rw [← hc, tan_zero, cos_zero, tan_pi_div_three, cos_pi_div_three, hd, not_lt, zero_sub, neg_sq, h3,
      div_le_iff₀ (by positivity)]
    field_simp
    norm_num

end Verif.Props
