import Verif.Props.HAC
import Verif.Model.Dendrogram

/-! # C133: heights of the merges of agglomerative clustering, and the dendrogram -/

set_option autoImplicit false

namespace Verif.Props

open Real Verif Verif.Spec

/-! ## Geometry of three directions -/

private lemma cos_le_of_between {y D : ℝ} (hD : 0 ≤ D) (h0 : D ≤ y) (h1 : y ≤ 2 * π - D) : cos y ≤ cos D := by
  rcases le_total y π with h | h
  · exact cos_le_cos_of_nonneg_of_le_pi hD h h0
  · rw [← cos_two_pi_sub y]
    exact cos_le_cos_of_nonneg_of_le_pi hD (by linarith) (by linarith)

private lemma between_of_cos_le {y D : ℝ} (hD1 : D ≤ π) (hy0 : 0 ≤ y) (hy1 : y ≤ 2 * π)
    (h : cos y ≤ cos D) : D ≤ y ∧ y ≤ 2 * π - D := by
  constructor
  · by_contra hc
    exact absurd (cos_lt_cos_of_nonneg_of_le_pi hy0 hD1 (not_le.mp hc)) (not_lt.mpr h)
  · by_contra hc
    rw [← cos_two_pi_sub y] at h
    exact absurd (cos_lt_cos_of_nonneg_of_le_pi (by linarith) hD1 (by linarith : 2 * π - y < D)) (not_lt.mpr h)

/-- If `c` is at least as far from `a` and from `b` as these are from each other, it is at least as far from any
direction `m` of a positive combination of them; distances by cosines, `b = a + D`. -/
private lemma far_of_far {D t u : ℝ} {p q r : ℝ} (hp : 0 < p) (hq : 0 < q) (hr : 0 < r) (hD0 : 0 ≤ D) (hD1 : D ≤ π)
    (hc : r * cos t = p + q * cos D) (hs : r * sin t = q * sin D)
    (h1 : cos u ≤ cos D) (h2 : cos (u - D) ≤ cos D) : cos (t - u) ≤ cos D := by
  -- representatives
  obtain ⟨t', ht0, ht1, hct, hst⟩ : ∃ t', -π < t' ∧ t' ≤ π ∧ cos t' = cos t ∧ sin t' = sin t := by
    refine ⟨toIocMod two_pi_pos (-π) t, ?_, ?_, ?_, ?_⟩
    · exact (toIocMod_mem_Ioc two_pi_pos (-π) t).1
    · have := (toIocMod_mem_Ioc two_pi_pos (-π) t).2; linarith
    · rw [← self_sub_toIocDiv_zsmul, zsmul_eq_mul, cos_sub_int_mul_two_pi]
    · rw [← self_sub_toIocDiv_zsmul, zsmul_eq_mul, sin_sub_int_mul_two_pi]
  obtain ⟨u', hu0, hu1, hcu, hsu⟩ : ∃ u', 0 ≤ u' ∧ u' ≤ 2 * π ∧ cos u' = cos u ∧ sin u' = sin u := by
    refine ⟨toIcoMod two_pi_pos 0 u, ?_, ?_, ?_, ?_⟩
    · exact (toIcoMod_mem_Ico two_pi_pos 0 u).1
    · have := (toIcoMod_mem_Ico two_pi_pos 0 u).2; linarith
    · rw [← self_sub_toIcoDiv_zsmul, zsmul_eq_mul, cos_sub_int_mul_two_pi]
    · rw [← self_sub_toIcoDiv_zsmul, zsmul_eq_mul, sin_sub_int_mul_two_pi]
  have hsD : 0 ≤ sin D := sin_nonneg_of_nonneg_of_le_pi hD0 hD1
  -- `t'` lies between 0 and `D`
  have hst0 : 0 ≤ sin t' := by
    rw [hst]
    by_contra h
    have : r * sin t < 0 := mul_neg_of_pos_of_neg hr (not_le.mp h)
    have : 0 ≤ q * sin D := by positivity
    linarith
  have htn : 0 ≤ t' := by
    by_contra h
    have := sin_neg_of_neg_of_neg_pi_lt (not_le.mp h) ht0
    linarith
  have htD : t' ≤ D := by
    by_contra h
    have hlt := not_le.mp h
    have e : r * sin (t' - D) = -(p * sin D) := by
      rw [sin_sub, hct, hst]
      linear_combination cos D * hs - sin D * hc
    have hpos : 0 ≤ p * sin D := by positivity
    rcases eq_or_lt_of_le (show t' - D ≤ π by linarith) with h3 | h3
    · have hD : D = 0 := by linarith
      have ht : t' = π := by linarith
      rw [hD, cos_zero] at hc
      rw [← hct, ht, cos_pi] at hc
      linarith
    · have := sin_pos_of_pos_of_lt_pi (by linarith : 0 < t' - D) h3
      have := mul_pos hr this
      linarith
  have hb := between_of_cos_le hD1 hu0 hu1 (by rw [hcu]; exact h1)
  have e2 : cos (u' - D) = cos (u - D) := by rw [cos_sub, cos_sub, hcu, hsu]
  have hb2 := between_of_cos_le hD1 (by linarith : 0 ≤ u' - D) (by linarith) (by rw [e2]; exact h2)
  have e3 : cos (t - u) = cos (u' - t') := by
    rw [cos_sub, cos_sub, hct, hst, hcu, hsu]; ring
  rw [e3]
  exact cos_le_of_between hD0 (by linarith [hb2.1]) (by linarith [hb.2])

/-- The same for arbitrary `a`, `b`. -/
private lemma far_of_far' {a b c m p q r : ℝ} (hp : 0 < p) (hq : 0 < q) (hr : 0 < r)
    (hc : r * cos m = p * cos a + q * cos b) (hs : r * sin m = p * sin a + q * sin b)
    (h1 : cos (a - c) ≤ cos (a - b)) (h2 : cos (b - c) ≤ cos (a - b)) : cos (m - c) ≤ cos (a - b) := by
  have main : ∀ {a b p q : ℝ}, 0 < p → 0 < q → r * cos m = p * cos a + q * cos b → r * sin m = p * sin a + q * sin b →
      cos (a - c) ≤ cos (a - b) → cos (b - c) ≤ cos (a - b) → 0 ≤ toIocMod two_pi_pos (-π) (b - a) →
      cos (m - c) ≤ cos (a - b) := by
    intro a b p q hp hq hc hs h1 h2 hD
    obtain ⟨D, hDe⟩ : ∃ D, toIocMod two_pi_pos (-π) (b - a) = D := ⟨_, rfl⟩
    rw [hDe] at hD
    have hD1 : D ≤ π := by have := (toIocMod_mem_Ioc two_pi_pos (-π) (b - a)).2; linarith
    have hcD : cos D = cos (b - a) := by
      rw [← hDe, ← self_sub_toIocDiv_zsmul, zsmul_eq_mul, cos_sub_int_mul_two_pi]
    have hsD : sin D = sin (b - a) := by
      rw [← hDe, ← self_sub_toIocDiv_zsmul, zsmul_eq_mul, sin_sub_int_mul_two_pi]
    have hcab : cos (a - b) = cos D := by rw [hcD, ← cos_neg, neg_sub]
    have hone := cos_sq_add_sin_sq a
    rw [hcab] at h1 h2 ⊢
    have := far_of_far (t := m - a) (u := c - a) hp hq hr hD hD1
      (by rw [cos_sub, hcD, cos_sub]; linear_combination cos a * hc + sin a * hs + p * hone)
      (by rw [sin_sub, hsD, sin_sub]; linear_combination cos a * hs - sin a * hc)
      (by rw [← cos_neg, neg_sub]; exact h1)
      (by
        have : cos (c - a - D) = cos (b - c) := by
          rw [cos_sub, hcD, hsD, ← cos_sub, show c - a - (b - a) = -(b - c) by ring, cos_neg]
        rw [this]; exact h2)
    rwa [show m - a - (c - a) = m - c by ring] at this
  by_cases hD : 0 ≤ toIocMod two_pi_pos (-π) (b - a)
  · exact main hp hq hc hs h1 h2 hD
  · have hab : cos (b - a) = cos (a - b) := by rw [← cos_neg, neg_sub]
    have := main (a := b) (b := a) hq hp (by rw [hc]; ring) (by rw [hs]; ring) (by rw [hab]; exact h2)
      (by rw [hab]; exact h1) ?_
    · rwa [hab] at this
    · have hmem := toIocMod_mem_Ioc two_pi_pos (-π) (b - a)
      obtain ⟨k, hk⟩ : ∃ k : ℤ, toIocMod two_pi_pos (-π) (b - a) = b - a - k * (2 * π) :=
        ⟨_, by rw [← self_sub_toIocDiv_zsmul, zsmul_eq_mul]⟩
      have : toIocMod two_pi_pos (-π) (a - b) = -toIocMod two_pi_pos (-π) (b - a) := by
        rw [toIocMod_eq_iff]
        refine ⟨⟨by linarith [not_le.mp hD, pi_pos], by linarith [hmem.1]⟩, -k, ?_⟩
        rw [hk]; simp; ring
      rw [this]; linarith [not_le.mp hD]

/-! ## Means and distances of clusters -/

/-- A defined mean is the direction of the sum of the unit vectors of the cluster. -/
private lemma clusterMean_polar {alpha : List ℝ} {l : List ℕ} {a : ℝ} (h : clusterMean alpha l = some a) :
    (0 ≤ a ∧ a < 2 * π) ∧ ∃ p : ℝ, 0 < p ∧
      p * cos a = (l.map fun i => cos (alpha.getD i 0)).sum ∧ p * sin a = (l.map fun i => sin (alpha.getD i 0)).sum := by
  obtain ⟨sub, hsub⟩ : ∃ sub, (l.map fun i => alpha.getD i 0) = sub := ⟨_, rfl⟩
  simp only [clusterMean, hsub, circMeanAndR_eq] at h
  split_ifs at h with h1 h2
  · simp at h
  · simp at h
  simp only [Option.bind_some, Option.some.injEq] at h
  have hn : (0 : ℝ) < (ones sub).sum := by
    rw [sum_ones] at h1 ⊢
    exact lt_of_le_of_ne (Nat.cast_nonneg _) (Ne.symm h1)
  have hnorm : 0 < ‖moment sub (ones sub) 1‖ := lt_of_le_of_lt (by positivity) (not_le.mp h2)
  have hcos : cos a = cos (Complex.arg (moment sub (ones sub) 1)) := by
    rw [← h]; exact cos_eq_of_sameDir (angmod2pi_cong _)
  have hsin : sin a = sin (Complex.arg (moment sub (ones sub) 1)) := by
    rw [← h]; exact sin_eq_of_sameDir (angmod2pi_cong _)
  have hz : moment sub (ones sub) 1 ≠ 0 := fun h0 => by rw [h0] at hnorm; simp at hnorm
  have hexp : ∀ s : List ℝ, expSum s (ones s) 1 = ((s.map cos).sum : ℝ) + ((s.map sin).sum : ℝ) * Complex.I := by
    intro s
    induction s with
    | nil => simp [expSum, ones]
    | cons x xs ih =>
      have : expSum (x :: xs) (ones (x :: xs)) 1 = Complex.exp (x * Complex.I) + expSum xs (ones xs) 1 := by
        simp [expSum, ones]
      rw [this, ih, Complex.exp_mul_I]
      simp only [List.map_cons, List.sum_cons]
      push_cast
      ring
  have hm : moment sub (ones sub) 1 * ((ones sub).sum : ℝ)
      = ((sub.map cos).sum : ℝ) + ((sub.map sin).sum : ℝ) * Complex.I := by
    rw [← hexp, moment, div_mul_cancel₀]
    exact_mod_cast hn.ne'
  have hre := congrArg Complex.re hm
  have him := congrArg Complex.im hm
  simp at hre him
  refine ⟨by rw [← h]; exact ⟨angmod2pi_nonneg _, angmod2pi_lt _⟩, ‖moment sub (ones sub) 1‖ * (ones sub).sum,
    mul_pos hnorm hn, ?_, ?_⟩
  · rw [hcos, Complex.cos_arg hz]
    rw [show (l.map fun i => cos (alpha.getD i 0)) = sub.map cos by rw [← hsub, List.map_map]; rfl, ← hre]
    field_simp
  · rw [hsin, Complex.sin_arg]
    rw [show (l.map fun i => sin (alpha.getD i 0)) = sub.map sin by rw [← hsub, List.map_map]; rfl, ← him]
    field_simp

/-- The three symmetric metrics are decreasing functions of the cosine of the difference, with values `≥ 0`. -/
private lemma hacDist_cos {metric : String}
    (hm : metric = "geodesic" ∨ metric = "angularseparation" ∨ metric = "chord") :
    ∃ φ : ℝ → ℝ, StrictAntiOn φ (Set.Icc (-1) 1) ∧ (∀ v ∈ Set.Icc (-1 : ℝ) 1, 0 ≤ φ v) ∧
      ∀ a b : ℝ, 0 ≤ a ∧ a < 2 * π → 0 ≤ b ∧ b < 2 * π → hacDist metric a b = φ (cos (a - b)) := by
  rcases hm with rfl | rfl | rfl
  · refine ⟨arccos, strictAntiOn_arccos, fun v _ => arccos_nonneg v, fun a b ha hb => ?_⟩
    have : hacDist "geodesic" a b = geodesic a b := by simp [hacDist, circDist]
    rw [this]
    unfold geodesic
    have h2 : |a - b| ≤ 2 * π := abs_le.2 ⟨by linarith [ha.1, hb.2], by linarith [ha.2, hb.1]⟩
    rw [← cos_abs (a - b)]
    rcases le_total |a - b| π with h | h
    · rw [arccos_cos (abs_nonneg _) h, abs_of_nonneg (by linarith)]; ring
    · rw [← cos_two_pi_sub, arccos_cos (by linarith) (by linarith), abs_of_nonpos (by linarith)]; ring
  · refine ⟨fun v => 1 - v, fun x _ y _ h => by simp only; linarith, fun v hv => by linarith [hv.2], fun a b _ _ => ?_⟩
    simp [hacDist, circDist]
  · refine ⟨fun v => sqrt (2 * (1 - v)), fun x hx y hy h => ?_, fun v _ => sqrt_nonneg _, fun a b _ _ => ?_⟩
    · exact sqrt_lt_sqrt (by linarith [hy.2]) (by linarith)
    · simp [hacDist, circDist]

private lemma pair_sublist' {α : Type} {l : List α} {x y : α} (hx : x ∈ l) (hy : y ∈ l) (hne : x ≠ y) :
    [x, y].Sublist l ∨ [y, x].Sublist l := by
  induction l with
  | nil => simp at hx
  | cons z zs ih =>
    rcases List.mem_cons.1 hx with rfl | hx'
    · rcases List.mem_cons.1 hy with rfl | hy'
      · exact absurd rfl hne
      · exact Or.inl (List.Sublist.cons_cons _ (List.singleton_sublist.2 hy'))
    · rcases List.mem_cons.1 hy with rfl | hy'
      · exact Or.inr (List.Sublist.cons_cons _ (List.singleton_sublist.2 hx'))
      · exact (ih hx' hy').imp (fun h => h.cons _) (fun h => h.cons _)

/-- Two merges in succession: the second is not lower. -/
private lemma heights_step {metric : String}
    (hm : metric = "geodesic" ∨ metric = "angularseparation" ∨ metric = "chord") {alpha : List ℝ}
    {next next' : ℕ} {cl cl' cl'' : List Cluster} {m m' : Merge}
    (h : IsMerge (clusterDist metric alpha) next cl m cl') (h' : IsMerge (clusterDist metric alpha) next' cl' m' cl'') :
    m.dist ≤ m'.dist := by
  obtain ⟨φ, hφ, hφ0, hφe⟩ := hacDist_cos hm
  have hI : ∀ x : ℝ, cos x ∈ Set.Icc (-1 : ℝ) 1 := fun x => ⟨neg_one_le_cos x, cos_le_one x⟩
  -- the distance of two clusters
  have hcd : ∀ x y d, clusterDist metric alpha x y = some d → ∃ a b, clusterMean alpha x.2 = some a ∧
      clusterMean alpha y.2 = some b ∧ d = φ (cos (a - b)) := by
    intro x y d hd
    cases ha : clusterMean alpha x.2 with
    | none => simp [clusterDist, ha] at hd
    | some a =>
      cases hb : clusterMean alpha y.2 with
      | none => simp [clusterDist, ha, hb] at hd
      | some b =>
        refine ⟨a, b, rfl, rfl, ?_⟩
        rw [← hφe a b (clusterMean_polar ha).1 (clusterMean_polar hb).1]
        simpa [clusterDist, ha, hb] using hd.symm
  obtain ⟨x, y, d, hs, hne, hd, hmin, rfl, -, hcl⟩ := h
  obtain ⟨x', y', d', hs', hne', hd', -, rfl, -, -⟩ := h'
  have hx : x ∈ cl := hs.subset (by simp)
  have hy : y ∈ cl := hs.subset (by simp)
  have hx' : x' ∈ cl' := hs'.subset (by simp)
  have hy' : y' ∈ cl' := hs'.subset (by simp)
  obtain ⟨a, b, ha, hb, rfl⟩ := hcd x y d hd
  obtain ⟨a', b', ha', hb', rfl⟩ := hcd x' y' d' hd'
  -- minimality in terms of cosines
  have hmin' : ∀ u v, u ∈ cl → v ∈ cl → u ≠ v → ∀ e f, clusterMean alpha u.2 = some e → clusterMean alpha v.2 = some f →
      cos (e - f) ≤ cos (a - b) := by
    have key : ∀ u v, [u, v].Sublist cl → ∀ e f, clusterMean alpha u.2 = some e → clusterMean alpha v.2 = some f →
        cos (e - f) ≤ cos (a - b) := by
      intro u v huv e f he hf
      have := hmin u v huv (φ (cos (e - f))) (by
        rw [← hφe e f (clusterMean_polar he).1 (clusterMean_polar hf).1]; simp [clusterDist, he, hf])
      exact (hφ.le_iff_ge (hI _) (hI _)).mp this
    intro u v hu hv huv e f he hf
    rcases pair_sublist' hu hv huv with h | h
    · exact key u v h e f he hf
    · have := key v u h f e hf he
      rwa [← cos_neg, neg_sub] at this
  simp only
  rw [abs_of_nonneg (hφ0 _ (hI _)), abs_of_nonneg (hφ0 _ (hI _))]
  refine hφ.antitoneOn (hI _) (hI _) ?_
  -- the new cluster against an old one
  have hnew : ∀ c ∈ cl, c ≠ x → c ≠ y → ∀ e f, clusterMean alpha c.2 = some e → clusterMean alpha (x.2 ++ y.2) = some f →
      cos (f - e) ≤ cos (a - b) := by
    intro c hc hcx hcy e f he hf
    obtain ⟨-, p, hp, hp1, hp2⟩ := clusterMean_polar ha
    obtain ⟨-, q, hq, hq1, hq2⟩ := clusterMean_polar hb
    obtain ⟨-, r, hr, hr1, hr2⟩ := clusterMean_polar hf
    rw [List.map_append, List.sum_append, ← hp1, ← hq1] at hr1
    rw [List.map_append, List.sum_append, ← hp2, ← hq2] at hr2
    exact far_of_far' hp hq hr hr1 hr2 (hmin' x c hx hc (Ne.symm hcx) a e ha he)
      (hmin' y c hy hc (Ne.symm hcy) b e hb he)
  rcases (hcl x').mp hx' with ⟨h1, h2, h3⟩ | h1
  · rcases (hcl y').mp hy' with ⟨k1, k2, k3⟩ | k1
    · exact hmin' x' y' h1 k1 (fun e => hne' (by rw [e])) a' b' ha' hb'
    · rw [k1] at hb'
      have := hnew x' h1 h2 h3 a' b' ha' hb'
      rwa [← cos_neg, neg_sub] at this
  · rcases (hcl y').mp hy' with ⟨k1, k2, k3⟩ | k1
    · rw [h1] at ha'
      exact hnew y' k1 k2 k3 b' a' hb' ha'
    · exact absurd (by rw [h1, k1]) hne'

/-- **C133.** With a metric other than `"center"` the heights at which clusters are joined never decrease from merge to
merge, whatever the angles and however the clusters were initialised: the tree has no inversions, although clusters
are compared by their mean directions. -/
theorem C133_heights {metric : String} (hm : metric = "geodesic" ∨ metric = "angularseparation" ∨ metric = "chord")
    {k : ℕ} {pre : Option (ℕ × List ℕ)} {alpha : List ℝ} {r : HACResult} (hk : k < alpha.length)
    (hpre : ∀ m labels, pre = some (m, labels) → ∀ i < alpha.length, labels.getD i 0 < m)
    (h : hacFit metric k pre alpha = .ok r) : (r.merges.map Merge.dist).Pairwise (· ≤ ·) := by
  obtain ⟨next, cl, -, hag, -, -⟩ := C61_merges hk hpre h
  generalize hacInit alpha.length pre = start at hag
  generalize r.merges = ms at hag ⊢
  clear h hpre hk
  have : List.IsChain (· ≤ ·) (ms.map Merge.dist) := by
    induction hag with
    | done => simp
    | step h1 h2 ih =>
      cases h2 with
      | done => simp
      | step h3 h4 =>
        simp only [List.map_cons, List.isChain_cons_cons]
        exact ⟨heights_step hm h1 h3, by simpa using ih⟩
  exact List.isChain_iff_pairwise.mp this

/-- The hypotheses hold for four angles joined to one cluster, and there is a fit. -/
example : ∃ r, hacFit "geodesic" 1 none [0, 1, 3, 6] = .ok r ∧ (r.merges.map Merge.dist).Pairwise (· ≤ ·) := by
  obtain ⟨r, hr⟩ : ∃ r, hacFit "geodesic" 1 none [0, 1, 3, 6] = .ok r := ⟨_, rfl⟩
  exact ⟨r, hr, C133_heights (Or.inl rfl) (by simp) (by simp) hr⟩

/-- **C133 (negative).** With the default metric `"center"` heights can decrease: the angles 0, 0.1 and 2 are joined at
the heights 2 and 0.9. -/
theorem C133_center_inversion : ∃ r, hacFit "center" 1 none [0, 0.1, 2] = .ok r ∧
    r.merges = [⟨0, 2, 2, 2⟩, ⟨1, 3, 0.9, 3⟩] := by
  have hpi := pi_gt_three
  have m0 : clusterMean [0, 0.1, 2] [0] = some 0 := clusterMean_single _ _ _ rfl le_rfl (by linarith)
  have m1 : clusterMean [0, 0.1, 2] [1] = some 0.1 := clusterMean_single _ _ _ rfl (by norm_num) (by norm_num; linarith)
  have m2 : clusterMean [0, 0.1, 2] [2] = some 2 := clusterMean_single _ _ _ rfl (by norm_num) (by linarith)
  have hc1 : 1 / 2 ≤ cos 1 := by have := one_sub_sq_div_two_le_cos (x := 1); norm_num at this ⊢; linarith
  have m02 : clusterMean [0, 0.1, 2] [0, 2] = some 1 := by
    have hm : moment [0, 2] [1, 1] 1 = (cos 1 : ℝ) * Complex.exp ((1 : ℝ) * Complex.I) := by
      have e0 : Complex.exp ((0 : ℝ) * Complex.I) = Complex.exp ((1 : ℝ) * Complex.I) * Complex.exp (-Complex.I) := by
        rw [← Complex.exp_add]; congr 1; push_cast; ring
      have e2 : Complex.exp ((2 : ℝ) * Complex.I) = Complex.exp ((1 : ℝ) * Complex.I) * Complex.exp (Complex.I) := by
        rw [← Complex.exp_add]; congr 1; push_cast; ring
      have hcos : (2 : ℂ) * (cos 1 : ℝ) = Complex.exp (Complex.I) + Complex.exp (-Complex.I) := by
        rw [Complex.ofReal_cos, Complex.two_cos]; simp
      have : moment [0, 2] [1, 1] 1 = (Complex.exp ((0 : ℝ) * Complex.I) + Complex.exp ((2 : ℝ) * Complex.I)) / 2 := by
        simp [moment, expSum]; norm_num
      rw [this, e0, e2]
      linear_combination (-Complex.exp ((1 : ℝ) * Complex.I) / 2) * hcos
    have hn : ‖moment [0, 2] [1, 1] 1‖ = cos 1 := by
      rw [hm, norm_mul, Complex.norm_exp_ofReal_mul_I, mul_one, Complex.norm_real, norm_of_nonneg (by linarith)]
    have hs : SameDir (Complex.arg (moment [0, 2] [1, 1] 1)) 1 := arg_sameDir_of_polar (by linarith) hm
    simp only [clusterMean, List.map_cons, List.map_nil]
    rw [show [(([0, 0.1, 2] : List ℝ).getD 0 0), ([0, 0.1, 2] : List ℝ).getD 2 0] = [0, 2] from rfl,
      show ones [0, 2] = [1, 1] from rfl, circMeanAndR_eq, if_neg (by norm_num), hn, if_neg (by norm_num; linarith)]
    simp only [Option.bind_some, Option.some.injEq]
    rw [angmod2pi_congr hs, angmod2pi_eq_self (by norm_num) (by linarith)]
  have hd : ∀ x y d : ℝ, -π < d → d ≤ π → d = x - y → hacDist "center" x y = d := by
    intro x y d h0 h1 h
    rw [hacDist, C25_center_unique x y d h0 h1 (by rw [h]; exact CongMod.refl _ _)]
  have d01 : clusterDist "center" [0, 0.1, 2] (0, [0]) (1, [1]) = some (-0.1) := by
    rw [clusterDist, m0, m1]
    simp only [hd 0 0.1 (-0.1) (by norm_num; linarith) (by norm_num; linarith) (by norm_num)]
  have d02 : clusterDist "center" [0, 0.1, 2] (0, [0]) (2, [2]) = some (-2) := by
    rw [clusterDist, m0, m2]
    simp only [hd 0 2 (-2) (by linarith) (by linarith) (by norm_num)]
  have d12 : clusterDist "center" [0, 0.1, 2] (1, [1]) (2, [2]) = some (-1.9) := by
    rw [clusterDist, m1, m2]
    simp only [hd 0.1 2 (-1.9) (by norm_num; linarith) (by norm_num; linarith) (by norm_num)]
  have d13 : clusterDist "center" [0, 0.1, 2] (1, [1]) (3, [0, 2]) = some (-0.9) := by
    rw [clusterDist, m1, m02]
    simp only [hd 0.1 1 (-0.9) (by norm_num; linarith) (by norm_num; linarith) (by norm_num)]
  have hbest : bestPair (clusterDist "center" [0, 0.1, 2]) [(0, [0]), (1, [1]), (2, [2])] =
      some (-2, (0, [0]), (2, [2])) := by
    simp only [bestPair, listPairs, List.map_cons, List.map_nil, List.cons_append, List.nil_append, List.foldl_cons,
      List.foldl_nil, pairStep, d01, d02, d12]
    norm_num
  have hbest' : bestPair (clusterDist "center" [0, 0.1, 2]) [(1, [1]), (3, [0, 2])] =
      some (-0.9, (1, [1]), (3, [0, 2])) := by
    simp only [bestPair, listPairs, List.map_cons, List.map_nil, List.cons_append, List.nil_append, List.foldl_cons,
      List.foldl_nil, pairStep, d13]
  have hloop : (hacLoop (clusterDist "center" [0, 0.1, 2]) 1 3 3 [(0, [0]), (1, [1]), (2, [2])] []).2 =
      [⟨0, 2, 2, 2⟩, ⟨1, 3, 0.9, 3⟩] := by
    rw [hacLoop, if_neg (by simp), hbest]
    simp only
    rw [show (([(0, [0]), (1, [1]), (2, [2])] : List Cluster).filter fun c => decide (c.1 ≠ 0 ∧ c.1 ≠ 2)) ++
      [(3, [0] ++ [2])] = [(1, [1]), (3, [0, 2])] from rfl, hacLoop, if_neg (by simp), hbest']
    simp only
    rw [hacLoop, if_pos (by simp)]
    norm_num
  exact ⟨_, rfl, hloop⟩

/-! ## The drawing -/

/-- Is there a drawn line from `(x1, y1)` to `(x2, y2)`, in one or the other direction? -/
def Draws (l : List Stroke) (x1 y1 x2 y2 : ℝ) : Prop := ⟨x1, y1, x2, y2⟩ ∈ l ∨ ⟨x2, y2, x1, y1⟩ ∈ l

/-- **C133.** The dendrogram of a fitted model has three lines for every merge: two that rise from the axis at the ids of
the joined clusters to the height of the merge and one at that height between them; nothing else is drawn. An unfitted
model raises `AttributeError`. -/
theorem C133_dendrogram :
    plotDendrogram none = .error .attributeError ∧
    ∀ r : HACResult, ∃ l, plotDendrogram (some r) = .ok l ∧ l.length = 3 * r.merges.length ∧
      (∀ m ∈ r.merges, Draws l m.left 0 m.left m.dist ∧ Draws l m.right 0 m.right m.dist ∧
        Draws l m.left m.dist m.right m.dist) ∧
      ∀ s ∈ l, ∃ m ∈ r.merges, s.y2 = m.dist ∧ ((s.x1 = s.x2 ∧ s.y1 = 0 ∧ (s.x1 = m.left ∨ s.x1 = m.right)) ∨
        (s.y1 = m.dist ∧ s.x1 = m.left ∧ s.x2 = m.right)) := by
  refine ⟨rfl, fun r => ⟨_, rfl, ?_, ?_, ?_⟩⟩
  · generalize r.merges = ms
    induction ms with
    | nil => rfl
    | cons m ms ih => rw [List.flatMap_cons, List.length_append, ih, List.length_cons]; simp [mergeStrokes]; ring
  · intro m hm
    refine ⟨Or.inl ?_, Or.inl ?_, Or.inl ?_⟩ <;>
      exact List.mem_flatMap.mpr ⟨m, hm, by simp [mergeStrokes]⟩
  · intro s hs
    obtain ⟨m, hm, h⟩ := List.mem_flatMap.mp hs
    refine ⟨m, hm, ?_⟩
    simp only [mergeStrokes, List.mem_cons, List.not_mem_nil, or_false] at h
    rcases h with rfl | rfl | rfl <;> simp

/-- **C133 (negative).** Every line starts at the axis, also over a cluster that was itself formed by a merge: the two
parts of a tree are not connected. If the last of several merges joins a cluster formed before, the line over its id
starts at height 0 and not at the height at which it was formed. -/
theorem C133_not_connected {r : HACResult} {l : List Stroke} (h : plotDendrogram (some r) = .ok l) {s : Stroke} (hs : s ∈ l)
    (hv : s.x1 = s.x2) (hne : ∀ m ∈ r.merges, m.left ≠ m.right) : s.y1 = 0 := by
  obtain ⟨l', hl', -, -, h2⟩ := C133_dendrogram.2 r
  rw [h] at hl'
  cases hl'
  obtain ⟨m, hm, -, ⟨-, h0, -⟩ | ⟨-, hx, hy⟩⟩ := h2 s hs
  · exact h0
  · exact absurd (by exact_mod_cast (hx.symm.trans (hv.trans hy))) (hne m hm)

end Verif.Props
