import Verif.Model.ClusterPredict
import Verif.Props.KMeans
import Verif.Props.HAC
import Mathlib.Analysis.Real.Pi.Bounds
import Mathlib.Analysis.SpecialFunctions.Trigonometric.Bounds

/-! # C119: labels predicted for new angles, and the default grid of `predict_density` -/

set_option autoImplicit false

namespace Verif.Props

open Real Verif Verif.Spec

/-- Specification: among these centres, number `l` is the first at the smallest arc distance from `x`. -/
def IsNearestCentre (centers : List ℝ) (x : ℝ) (l : ℕ) : Prop :=
  ∃ c, centers[l]? = some c ∧ ∀ j c', centers[j]? = some c' → ∀ e e', IsArcDist e x c → IsArcDist e' x c' →
    e ≤ e' ∧ (j < l → e < e')

private lemma arc_exists (x y : ℝ) : ∃ e, IsArcDist e x y := by
  obtain ⟨d, -, -, -, -, h⟩ := C25_center x y
  exact ⟨_, h⟩

/-- There is at most one such number. -/
theorem C119_unique {centers : List ℝ} {x : ℝ} {l l' : ℕ} (h : IsNearestCentre centers x l)
    (h' : IsNearestCentre centers x l') : l = l' := by
  obtain ⟨c, hc, hm⟩ := h
  obtain ⟨c', hc', hm'⟩ := h'
  obtain ⟨e, he⟩ := arc_exists x c
  obtain ⟨e', he'⟩ := arc_exists x c'
  rcases lt_trichotomy l l' with hl | hl | hl
  · have h1 := (hm l' c' hc' e e' he he').1
    have h2 := (hm' l c hc e' e he' he).2 hl
    linarith
  · exact hl
  · have h1 := (hm' l c hc e' e he' he).1
    have h2 := (hm l' c' hc' e e' he he').2 hl
    linarith

private lemma arc_cos {e a b : ℝ} (he : IsArcDist e a b) : 0 ≤ e ∧ e ≤ π ∧ cos e = cos (a - b) := by
  obtain ⟨d, -, h0, h1, hs, hd⟩ := C25_center a b
  have := isArcDist_unique he hd
  rw [this]
  exact ⟨abs_nonneg _, abs_le.2 ⟨h0.le, h1⟩, by rw [cos_abs]; exact cos_eq_of_sameDir hs⟩

/-- The absolute distance of any metric is an increasing function of the arc. -/
private lemma hacDist_lt {metric : String} (hm : metric ∈ ["center", "geodesic", "angularseparation", "chord"])
    {x a b e e' : ℝ} (hg : metric = "geodesic" → |x - a| ≤ 2 * π ∧ |x - b| ≤ 2 * π)
    (he : IsArcDist e x a) (he' : IsArcDist e' x b) :
    |hacDist metric x a| < |hacDist metric x b| ↔ e < e' := by
  obtain ⟨f1, f2, f3⟩ := arc_cos he
  obtain ⟨g1, g2, g3⟩ := arc_cos he'
  have hcos : cos e' < cos e ↔ e < e' := strictAntiOn_cos.lt_iff_gt ⟨g1, g2⟩ ⟨f1, f2⟩
  have p1 : 0 ≤ 1 - cos (x - a) := by linarith [cos_le_one (x - a)]
  have p2 : 0 ≤ 1 - cos (x - b) := by linarith [cos_le_one (x - b)]
  simp only [List.mem_cons, List.not_mem_nil, or_false] at hm
  rcases hm with rfl | rfl | rfl | rfl
  · obtain ⟨d, hd, -, -, -, h⟩ := C25_center x a
    obtain ⟨d', hd', -, -, -, h'⟩ := C25_center x b
    rw [hacDist, hacDist, hd, hd', isArcDist_unique he h, isArcDist_unique he' h']
  · obtain ⟨d, hd, h⟩ := C17_geodesic_isArcDist x a (hg rfl).1
    obtain ⟨d', hd', h'⟩ := C17_geodesic_isArcDist x b (hg rfl).2
    rw [hacDist, hacDist, hd, hd']
    simp only
    rw [← isArcDist_unique he h, ← isArcDist_unique he' h', abs_of_nonneg f1, abs_of_nonneg g1]
  · simp only [hacDist, circDist, show ("angularseparation" : String) ≠ "center" by decide,
      show ("angularseparation" : String) ≠ "geodesic" by decide, if_false, if_true]
    rw [abs_of_nonneg p1, abs_of_nonneg p2, ← hcos, f3, g3]
    constructor <;> intro h <;> linarith
  · simp only [hacDist, circDist, show ("chord" : String) ≠ "center" by decide,
      show ("chord" : String) ≠ "geodesic" by decide, show ("chord" : String) ≠ "angularseparation" by decide,
      if_false, if_true]
    rw [abs_of_nonneg (sqrt_nonneg _), abs_of_nonneg (sqrt_nonneg _), sqrt_lt_sqrt_iff (by linarith), ← hcos, f3, g3]
    constructor <;> intro h <;> linarith

private lemma nearest_spec {metric : String} (hm : metric ∈ ["center", "geodesic", "angularseparation", "chord"])
    {centers : List ℝ} (hne : centers ≠ []) {x : ℝ}
    (hg : metric = "geodesic" → ∀ c ∈ centers, |x - c| ≤ 2 * π) :
    IsNearestCentre centers x (nearest metric (centers.map some) x) := by
  obtain ⟨-, h⟩ := nearest_isLabel metric (centers := centers.map some) (by simpa using hne) x
  rcases h with ⟨h, -⟩ | ⟨c, hc, h⟩
  · simp at h
  · have hc' : centers[nearest metric (centers.map some) x]? = some c := by simpa using hc
    refine ⟨c, hc', fun j b hj e e' he he' => ?_⟩
    obtain ⟨b', hb, h1, h2⟩ := h j (some b) (by simp [hj])
    cases hb
    have hg1 : metric = "geodesic" → |x - c| ≤ 2 * π ∧ |x - b| ≤ 2 * π := fun h =>
      ⟨hg h c (List.mem_of_getElem? hc'), hg h b (List.mem_of_getElem? hj)⟩
    refine ⟨?_, fun hl => (hacDist_lt hm hg1 he he').1 (h2 hl)⟩
    by_contra hcon
    have := (hacDist_lt hm (fun h => (hg1 h).symm) he' he).2 (not_le.1 hcon)
    linarith

/-- `CircHAC.predict` gives each angle the label of the centre at the smallest arc distance (the first of them), with
any of the four metrics; the metric "geodesic" needs angle and centres within one turn of each other. -/
theorem C119_hac {metric unit : String} (hm : metric ∈ ["center", "geodesic", "angularseparation", "chord"])
    {fullCycle : ℝ} {centers x : List ℝ} (hne : centers ≠ [])
    (hg : metric = "geodesic" → ∀ v ∈ x, ∀ c ∈ centers, |toRad unit fullCycle v - c| ≤ 2 * π) :
    ∃ ls, hacPredict metric unit fullCycle (some (centers.map some)) x = .ok ls ∧
      List.Forall₂ (fun v l => IsNearestCentre centers (toRad unit fullCycle v) l) x ls := by
  refine ⟨_, if_neg (by simp [hne]), ?_⟩
  rw [List.forall₂_map_right_iff, List.forall₂_same]
  exact fun v hv => nearest_spec hm hne fun h => hg h v hv

/-- The same for `CircKMeans.predict` (angles in radians). -/
theorem C119_kmeans {metric : String} (hm : metric ∈ ["center", "geodesic", "angularseparation", "chord"])
    {centers x : List ℝ} (hne : centers ≠ [])
    (hg : metric = "geodesic" → ∀ v ∈ x, ∀ c ∈ centers, |v - c| ≤ 2 * π) :
    ∃ ls, kmPredict metric centers.length (centers.map some) x = .ok ls ∧
      List.Forall₂ (IsNearestCentre centers) x ls := by
  refine ⟨_, if_neg (by simp), ?_⟩
  rw [List.forall₂_map_right_iff, List.take_of_length_le (by simp), List.forall₂_same]
  exact fun v hv => nearest_spec hm hne fun h => hg h v hv

/-- So the labels do not depend on the metric, nor on which turn the angles are given in, unless the metric is
"geodesic" and an angle is more than a turn away from a centre. -/
theorem C119_metric_free {metric metric' : String}
    (hm : metric ∈ ["center", "geodesic", "angularseparation", "chord"])
    (hm' : metric' ∈ ["center", "geodesic", "angularseparation", "chord"])
    {centers x y : List ℝ} (hne : centers ≠ []) (hxy : List.Forall₂ SameDir x y)
    (hg : metric = "geodesic" → ∀ v ∈ x, ∀ c ∈ centers, |v - c| ≤ 2 * π)
    (hg' : metric' = "geodesic" → ∀ v ∈ y, ∀ c ∈ centers, |v - c| ≤ 2 * π) :
    hacPredict metric "radian" 360 (some (centers.map some)) x =
      hacPredict metric' "radian" 360 (some (centers.map some)) y := by
  have key : ∀ {u v : ℝ} {l : ℕ}, SameDir u v → IsNearestCentre centers u l → IsNearestCentre centers v l := by
    rintro u v l h ⟨c, hc, hmin⟩
    exact ⟨c, hc, fun j c' hj e e' he he' => hmin j c' hj e e' ((isArcDist_congr h (CongMod.refl _ _)).2 he)
      ((isArcDist_congr h (CongMod.refl _ _)).2 he')⟩
  obtain ⟨l1, h1, hl1⟩ := C119_hac (unit := "radian") (fullCycle := 360) hm (x := x) hne (by simpa [toRad] using hg)
  obtain ⟨l2, h2, hl2⟩ := C119_hac (unit := "radian") (fullCycle := 360) hm' (x := y) hne (by simpa [toRad] using hg')
  rw [h1, h2]
  congr 1
  clear h1 h2 hg hg'
  simp only [toRad, if_true] at hl1 hl2
  induction hxy generalizing l1 l2 with
  | nil =>
    cases hl1
    cases hl2
    rfl
  | cons h _ ih =>
    cases hl1 with
    | cons a1 b1 =>
      cases hl2 with
      | cons a2 b2 => rw [ih _ _ b1 b2, C119_unique (key h a1) a2]

/-- Before `fit` it raises `ValueError`. -/
theorem C119_unfitted (metric unit : String) (fullCycle : ℝ) (x : List ℝ) :
    hacPredict metric unit fullCycle none x = .error .valueError := rfl

/-- The restriction on "geodesic" is needed: two full turns from the centre 0, an angle is given to the centre 3. -/
theorem C119_geodesic_fails :
    hacPredict "geodesic" "radian" 360 (some [some 0, some 3]) [4 * π] = .ok [1] ∧
      hacPredict "center" "radian" 360 (some [some 0, some 3]) [4 * π] = .ok [0] ∧
      IsNearestCentre [0, 3] (4 * π) 0 := by
  have hpi := pi_gt_three
  have e0 : IsArcDist |(0 : ℝ)| (4 * π) 0 := isArcDist_of (by simpa using pi_pos.le) ⟨-2, by push_cast; ring⟩
  have e3 : IsArcDist |(-3 : ℝ)| (4 * π) 3 := isArcDist_of (by norm_num; linarith) ⟨-2, by push_cast; ring⟩
  have hN : IsNearestCentre [0, 3] (4 * π) 0 := by
    refine ⟨0, rfl, fun j c' hj e e' he he' => ⟨?_, fun h => absurd h (Nat.not_lt_zero _)⟩⟩
    rw [isArcDist_unique he e0, abs_zero]
    exact (arc_cos he').1
  refine ⟨?_, ?_, hN⟩
  · have h1 : kmDist "geodesic" (4 * π) (some 0) = some (2 * π) := by
      simp only [kmDist, hacDist, circDist, geodesic, show ("geodesic" : String) ≠ "center" by decide, if_true, if_false,
        Option.map_some, Option.some.injEq]
      rw [sub_zero, abs_of_pos (show 0 < 4 * π by positivity), abs_of_neg (show π - 4 * π < 0 by linarith),
        abs_of_neg (by linarith)]
      ring
    have h2 : kmDist "geodesic" (4 * π) (some 3) = some (2 * π - 3) := by
      simp only [kmDist, hacDist, circDist, geodesic, show ("geodesic" : String) ≠ "center" by decide, if_true, if_false,
        Option.map_some, Option.some.injEq]
      rw [abs_of_pos (show 0 < 4 * π - 3 by linarith), abs_of_neg (show π - (4 * π - 3) < 0 by linarith),
        abs_of_neg (by linarith)]
      ring
    simp [hacPredict, toRad, nearest, h1, h2, npArgmin, argminL, List.findIdx?_cons]
  · obtain ⟨ls, h1, h2⟩ := C119_hac (metric := "center") (unit := "radian") (fullCycle := 360) (centers := [0, 3])
      (x := [4 * π]) (by simp) (by simp) (by intro h; exact absurd h (by decide))
    cases h2 with
    | cons a b =>
      cases b
      simp only [toRad, if_true] at a
      rw [C119_unique a hN] at h1
      exact h1

/-- The labels predicted for the fitted angles need not be the fitted labels. With the default metric and two clusters
the angles 0, 0.1, 3 are labelled 1, 0, 1, and 0 is predicted to be in cluster 0. -/
theorem C119_refit_fails : ∃ r, hacFit "center" 2 none [0, 0.1, 3] = .ok r ∧
    r.labels = [some 1, some 0, some 1] ∧
    hacPredict "center" "radian" 360 (some r.centers) [0] = .ok [0] := by
  have hpi := pi_gt_d2
  have m0 : clusterMean [0, 0.1, 3] [0] = some 0 := clusterMean_single _ _ _ rfl le_rfl (by linarith)
  have m1 : clusterMean [0, 0.1, 3] [1] = some 0.1 := clusterMean_single _ _ _ rfl (by norm_num) (by norm_num; linarith)
  have m2 : clusterMean [0, 0.1, 3] [2] = some 3 := clusterMean_single _ _ _ rfl (by norm_num) (by linarith)
  have m02 : clusterMean [0, 0.1, 3] [0, 2] = some 1.5 := by
    have h := mean_pair (a := 0) (b := 3) (by norm_num) (by linarith) (by
      have := one_sub_mul_le_cos (x := (3 - 0) / 2) (by norm_num) (by linarith)
      refine lt_of_lt_of_le ?_ this
      rw [div_mul_eq_mul_div, lt_sub_iff_add_lt, ← lt_sub_iff_add_lt', div_lt_iff₀ pi_pos]
      linarith)
    norm_num at h ⊢
    simpa [clusterMean] using h
  have hd : ∀ x y d : ℝ, -π < d → d ≤ π → d = x - y → hacDist "center" x y = d := by
    intro x y d h0 h1 h
    rw [hacDist, C25_center_unique x y d h0 h1 (by rw [h]; exact CongMod.refl _ _)]
  have d01 : clusterDist "center" [0, 0.1, 3] (0, [0]) (1, [1]) = some (-0.1) := by
    rw [clusterDist, m0, m1]
    simp only [hd 0 0.1 (-0.1) (by norm_num; linarith) (by norm_num; linarith) (by norm_num)]
  have d02 : clusterDist "center" [0, 0.1, 3] (0, [0]) (2, [2]) = some (-3) := by
    rw [clusterDist, m0, m2]
    simp only [hd 0 3 (-3) (by linarith) (by linarith) (by norm_num)]
  have d12 : clusterDist "center" [0, 0.1, 3] (1, [1]) (2, [2]) = some (-2.9) := by
    rw [clusterDist, m1, m2]
    simp only [hd 0.1 3 (-2.9) (by norm_num; linarith) (by norm_num; linarith) (by norm_num)]
  have hbest : bestPair (clusterDist "center" [0, 0.1, 3]) [(0, [0]), (1, [1]), (2, [2])] =
      some (-3, (0, [0]), (2, [2])) := by
    simp only [bestPair, listPairs, List.map_cons, List.map_nil, List.cons_append, List.nil_append, List.foldl_cons,
      List.foldl_nil, pairStep, d01, d02, d12]
    norm_num
  have hloop : (hacLoop (clusterDist "center" [0, 0.1, 3]) 2 3 3 [(0, [0]), (1, [1]), (2, [2])] []).1 =
      [(1, [1]), (3, [0, 2])] := by
    rw [hacLoop, if_neg (by simp), hbest]
    simp only
    rw [hacLoop, if_pos (by simp)]
    simp
  have hcen : [(1, [1]), (3, [0, 2])].map (fun c : Cluster => clusterMean [0, 0.1, 3] c.2) = [0.1, 1.5].map some := by
    simp only [List.map_cons, List.map_nil, m1, m02]
  refine ⟨_, rfl, ?_, ?_⟩
  · show (List.range 3).map (labelOf (hacLoop (clusterDist "center" [0, 0.1, 3]) 2 3 3 [(0, [0]), (1, [1]), (2, [2])] []).1 0)
      = _
    rw [hloop]
    rfl
  · show hacPredict _ _ _ (some ((hacLoop (clusterDist "center" [0, 0.1, 3]) 2 3 3 [(0, [0]), (1, [1]), (2, [2])] []).1.map
      fun c => clusterMean [0, 0.1, 3] c.2)) _ = _
    rw [hloop, hcen]
    have e1 : IsArcDist |(-0.1 : ℝ)| 0 0.1 := isArcDist_of (by norm_num; linarith) (by norm_num; exact CongMod.refl _ _)
    have e2 : IsArcDist |(-1.5 : ℝ)| 0 1.5 := isArcDist_of (by norm_num; linarith) (by norm_num; exact CongMod.refl _ _)
    have hN : IsNearestCentre [0.1, 1.5] 0 0 := by
      refine ⟨0.1, rfl, fun j c' hj e e' he he' => ⟨?_, fun h => absurd h (Nat.not_lt_zero _)⟩⟩
      rw [isArcDist_unique he e1]
      rcases j with _ | _ | j
      · simp only [List.getElem?_cons_zero, Option.some.injEq] at hj
        rw [← hj] at he'
        rw [isArcDist_unique he' e1]
      · simp only [zero_add, List.getElem?_cons_succ, List.getElem?_cons_zero, Option.some.injEq] at hj
        rw [← hj] at he'
        rw [isArcDist_unique he' e2]
        norm_num
      · simp at hj
    obtain ⟨ls, h1, h2⟩ := C119_hac (metric := "center") (unit := "radian") (fullCycle := 360) (centers := [0.1, 1.5])
      (x := [0]) (by simp) (by simp) (by intro h; exact absurd h (by decide))
    cases h2 with
    | cons a b =>
      cases b
      simp only [toRad, if_true] at a
      rw [C119_unique a hN] at h1
      exact h1

/-- The default grid of `predict_density`. In radians, and in degrees with `full_cycle=360`, it is the `m` equidistant
points of one turn. In degrees with another `full_cycle` it is not. -/
theorem C119_grid (m : ℕ) (hm : 2 ≤ m) (k : ℝ) (hk : k ≠ 0) :
    (∀ i, defaultGrid "radian" k m i = 2 * π * i / m) ∧
      ((∀ i < m, defaultGrid "degree" k m i = 2 * π * i / m) ↔ k = 360) ∧
      ∀ i, defaultGrid "degree" k m i = 360 / k * (2 * π * i / m) := by
  have h3 : ∀ i, defaultGrid "degree" k m i = 360 / k * (2 * π * i / m) := by
    intro i
    simp only [defaultGrid, toRad, data2rad, show ("degree" : String) ≠ "radian" by decide, if_true, if_false]
    field_simp
    ring
  refine ⟨fun i => by simp [defaultGrid, toRad], ⟨fun h => ?_, fun h i _ => by rw [h3, h]; norm_num⟩, h3⟩
  have := h 1 (by omega)
  rw [h3] at this
  have hp : 2 * π * (1 : ℕ) / (m : ℝ) ≠ 0 := by
    have : (m : ℝ) ≠ 0 := by positivity
    have := pi_pos.ne'
    positivity
  have h1 : 360 / k = 1 := by
    have h2 : (360 / k - 1) * (2 * π * (1 : ℕ) / (m : ℝ)) = 0 := by linarith
    rcases mul_eq_zero.1 h2 with h | h
    · linarith
    · exact absurd h hp
  field_simp at h1
  exact h1.symm

/-- With `unit="degree", full_cycle=24` the grid runs through fifteen turns: one of its points lies in every turn. -/
theorem C119_grid_fails (m : ℕ) (hm : 16 ≤ m) : ∀ j : ℕ, j < 15 → ∃ i < m,
    2 * π * j ≤ defaultGrid "degree" 24 m i ∧ defaultGrid "degree" 24 m i < 2 * π * (j + 1) := by
  intro j hj
  have hm0 : (0 : ℝ) < m := by
    have : 0 < m := by omega
    exact_mod_cast this
  have h2 := (C119_grid m (by omega) 24 (by norm_num)).2.2
  -- the first point not before the turn
  obtain ⟨i, hi⟩ : ∃ i, i = (j * m + 14) / 15 := ⟨_, rfl⟩
  have h3 : j * m ≤ 15 * i := by omega
  have h4 : 15 * i ≤ j * m + 14 := by omega
  have h5 : i < m := by
    have : j * m ≤ 14 * m := Nat.mul_le_mul_right m (by omega)
    omega
  refine ⟨i, h5, ?_, ?_⟩
  · rw [h2]
    have h3' : (j : ℝ) * m ≤ 15 * i := by exact_mod_cast h3
    rw [show (360 : ℝ) / 24 * (2 * π * i / m) = 2 * π * ((15 * i) / m) by ring]
    exact mul_le_mul_of_nonneg_left ((le_div_iff₀ hm0).2 h3') (by positivity)
  · rw [h2]
    have h4' : (15 : ℝ) * i ≤ j * m + 14 := by exact_mod_cast h4
    rw [show (360 : ℝ) / 24 * (2 * π * i / m) = 2 * π * ((15 * i) / m) by ring]
    refine mul_lt_mul_of_pos_left ((div_lt_iff₀ hm0).2 ?_) (by positivity)
    have : (16 : ℝ) ≤ m := by exact_mod_cast hm
    linarith

end Verif.Props
