import Verif.Lemmas.Mixture
import Verif.Lemmas.Groups
import Verif.Lemmas.HAC
import Verif.Props.Dist

/-! # C63: k-means (`CircKMeans`) -/

set_option autoImplicit false

namespace Verif.Props

open Real Verif Verif.Spec

/-- The loop ends with a pass from some previous centres `prev`. -/
lemma kmLoop_spec (metric : String) (tol : ℝ) (alpha : List ℝ) :
    ∀ (k : ℕ) (labels : List ℕ) (centers : List (Option ℝ)), 0 < k →
      ∃ prev, prev.length = centers.length ∧
        (kmLoop metric tol alpha k labels centers).1 = alpha.map (nearest metric prev) ∧
        (kmLoop metric tol alpha k labels centers).2 =
          newCenters alpha (kmLoop metric tol alpha k labels centers).1 prev
  | 0, _, _, h => absurd h (lt_irrefl _)
  | k + 1, labels, centers, _ => by
    rw [kmLoop]
    split_ifs with h
    · exact ⟨centers, rfl, rfl, rfl⟩
    · rcases Nat.eq_zero_or_pos k with rfl | hk
      · exact ⟨centers, rfl, rfl, rfl⟩
      · obtain ⟨prev, h1, h2⟩ := kmLoop_spec metric tol alpha k (alpha.map (nearest metric centers))
          (newCenters alpha (alpha.map (nearest metric centers)) centers) hk
        exact ⟨prev, by rw [h1, newCenters, List.length_mapIdx], h2⟩

private lemma npArgmin_lt {l : List (Option ℝ)} (h : l ≠ []) : npArgmin l < l.length := by
  rw [npArgmin]
  split
  · rename_i i hi
    exact (List.findIdx?_eq_some_iff_findIdx_eq.1 hi).1
  · have : l.map (fun o => o.getD 0) ≠ [] := by simpa using h
    simpa using argminL_lt this

/-- Specification: `l` is the label that the code assigns to the angle `x`, given centres: the first centre at the
smallest distance; but an undefined centre (`nan`) beats every other. -/
def IsLabel (metric : String) (centers : List (Option ℝ)) (x : ℝ) (l : ℕ) : Prop :=
  (centers[l]? = some none ∧ ∀ j < l, centers[j]? ≠ some none) ∨
    ∃ c, centers[l]? = some (some c) ∧ ∀ j c', centers[j]? = some c' → ∃ b, c' = some b ∧
      |hacDist metric x c| ≤ |hacDist metric x b| ∧ (j < l → |hacDist metric x c| < |hacDist metric x b|)

lemma nearest_isLabel (metric : String) {centers : List (Option ℝ)} (hne : centers ≠ []) (x : ℝ) :
    nearest metric centers x < centers.length ∧ IsLabel metric centers x (nearest metric centers x) := by
  have hlt : nearest metric centers x < centers.length := by
    have := npArgmin_lt (l := centers.map (kmDist metric x)) (by simpa using hne)
    simpa [nearest] using this
  refine ⟨hlt, ?_⟩
  unfold nearest npArgmin
  split
  · rename_i i hi
    left
    rw [List.findIdx?_eq_some_iff_getElem] at hi
    obtain ⟨h1, h2, h3⟩ := hi
    have h1' : i < centers.length := by simpa using h1
    constructor
    · rw [List.getElem_map] at h2
      rw [List.getElem?_eq_getElem h1']
      cases hc : centers[i] with
      | none => rfl
      | some c => rw [hc] at h2; simp [kmDist] at h2
    · intro j hj hcon
      have h4 := h3 j hj
      rw [List.getElem_map] at h4
      have : centers[j]'(by omega) = none := by
        rw [List.getElem?_eq_getElem (by omega)] at hcon
        exact Option.some.inj hcon
      rw [this] at h4
      simp [kmDist] at h4
  · rename_i hi
    right
    rw [List.findIdx?_eq_none_iff] at hi
    have hall : ∀ j (hj : j < centers.length), ∃ c, centers[j] = some c := by
      intro j hj
      have := hi (kmDist metric x centers[j]) (List.mem_map_of_mem (List.getElem_mem hj))
      cases hc : centers[j] with
      | none => rw [hc] at this; simp [kmDist] at this
      | some c => exact ⟨c, rfl⟩
    set l := (centers.map (kmDist metric x)).map fun o => o.getD 0 with hl
    have hlen : l.length = centers.length := by simp [hl]
    have hlne : l ≠ [] := by
      intro e
      rw [e] at hlen
      exact hne (List.length_eq_zero_iff.1 hlen.symm)
    have ha := argminL_lt hlne
    obtain ⟨s1, s2⟩ := argminL_spec ha
    have hval : ∀ j (hj : j < l.length) c, centers[j]'(by omega) = some c → l[j] = |hacDist metric x c| := by
      intro j hj c hc
      simp [hl, hc, kmDist]
    obtain ⟨c, hc⟩ := hall (argminL l) (by omega)
    refine ⟨c, by rw [List.getElem?_eq_getElem (by omega), hc], ?_⟩
    intro j c' hj
    obtain ⟨hj1, hj2⟩ := List.getElem?_eq_some_iff.1 hj
    obtain ⟨b, hb⟩ := hall j hj1
    refine ⟨b, by rw [← hj2, hb], ?_, ?_⟩
    · have := s1 _ (List.getElem_mem (show j < l.length by omega))
      rwa [hval _ ha c hc, hval j (by omega) b hb] at this
    · intro hlt'
      have := s2 j hlt'
      rwa [hval _ ha c hc, hval j (by omega) b hb] at this

/-- Specification: the centre of a cluster with these members: their mean direction in `[0, 2π)`; undefined if the
mean vector is no longer than `1e-12`; the old centre if there are no members. -/
def IsCenter (members : List ℝ) (old new : Option ℝ) : Prop :=
  (members = [] ∧ new = old) ∨
    (members ≠ [] ∧ new = none ∧ ‖resultant members‖ / members.length ≤ 1 / 10 ^ 12) ∨
    ∃ m ρ : ℝ, members ≠ [] ∧ new = some m ∧ 1 / 10 ^ 12 < ρ ∧ 0 ≤ m ∧ m < 2 * π ∧
      resultant members / members.length = (ρ : ℂ) * Complex.exp ((m : ℂ) * Complex.I)

/-- The observations with label `c`. -/
def withLabel (alpha : List ℝ) (labels : List ℕ) (c : ℕ) : List ℝ :=
  ((List.zip alpha labels).filter fun p => p.2 = c).map Prod.fst

private lemma filterMap_withLabel (alpha : List ℝ) (labels : List ℕ) (c : ℕ) :
    ((List.zip alpha labels).filterMap fun p => if p.2 = c then some p.1 else none) = withLabel alpha labels c := by
  unfold withLabel
  induction List.zip alpha labels with
  | nil => rfl
  | cons p l ih =>
    by_cases h : p.2 = c
    · simp [h, ih]
    · simp [h, ih]

private lemma newCenter_isCenter (members : List ℝ) (old : Option ℝ) :
    IsCenter members old (if members = [] then old else (circMeanAndR members (ones members)).bind fun mr => mr.1) := by
  by_cases h : members = []
  · left
    rw [if_pos h]
    exact ⟨h, rfl⟩
  · right
    have hl : (members.length : ℝ) ≠ 0 := by
      have := List.length_pos_iff.2 h
      positivity
    have hlc : (members.length : ℂ) ≠ 0 := by exact_mod_cast hl
    have hm : moment members (ones members) 1 = resultant members / members.length := by
      rw [moment, expSum_ones, sum_ones]
      norm_num
    rw [if_neg h, circMeanAndR_eq, sum_ones, if_neg hl, Option.bind_some, hm]
    split_ifs with hs
    · left
      refine ⟨h, rfl, ?_⟩
      rwa [norm_div, Complex.norm_natCast] at hs
    · right
      push Not at hs
      refine ⟨_, _, h, rfl, hs, angmod2pi_nonneg _, angmod2pi_lt _, ?_⟩
      have := exp_eq_of_sameDir (angmod2pi_cong (Complex.arg (resultant members / members.length))) 1
      push_cast at this
      simp only [one_mul] at this
      rw [this, Complex.norm_mul_exp_arg_mul_I]

lemma newCenters_isCenter (alpha : List ℝ) (labels : List ℕ) (prev : List (Option ℝ)) {c : ℕ}
    (hc : c < prev.length) : ∃ new, (newCenters alpha labels prev)[c]? = some new ∧
      IsCenter (withLabel alpha labels c) prev[c] new := by
  rw [newCenters, List.getElem?_mapIdx, List.getElem?_eq_getElem hc, Option.map_some]
  simp only [filterMap_withLabel]
  exact ⟨_, rfl, newCenter_isCenter _ _⟩

/-- What `fit` returns: there are centres `prev` (those before the last update) such that every observation carries
the label of its nearest previous centre, labels are below `k`, and every reported centre is the mean direction of
the observations with its label, or the previous one if there are none. -/
theorem C63_fit {metric : String} {k maxIter : ℕ} {tol : ℝ} {init : List ℕ} {alpha : List ℝ} (hk : 0 < k)
    (hn : k ≤ alpha.length) (hi : init.length = k) (hm : 0 < maxIter) :
    ∃ prev : List (Option ℝ), prev.length = k ∧ (kmFit metric k maxIter tol init alpha).centers.length = k ∧
      (kmFit metric k maxIter tol init alpha).labels.length = alpha.length ∧
      (∀ (i l : ℕ) (x : ℝ), alpha[i]? = some x → (kmFit metric k maxIter tol init alpha).labels[i]? = some l →
        l < k ∧ IsLabel metric prev x l) ∧
      ∀ c < k, ∃ old new, prev[c]? = some old ∧ (kmFit metric k maxIter tol init alpha).centers[c]? = some new ∧
        IsCenter (withLabel alpha (kmFit metric k maxIter tol init alpha).labels c) old new := by
  rw [kmFit, if_neg (by omega)]
  simp only
  obtain ⟨prev, h1, h2, h3⟩ := kmLoop_spec metric tol alpha maxIter (alpha.map fun _ => 0)
    (init.map fun i => some (alpha.getD i 0)) hm
  rw [List.length_map, hi] at h1
  have hne : prev ≠ [] := by
    rintro rfl
    simp at h1
    omega
  refine ⟨prev, h1, by rw [h3, newCenters, List.length_mapIdx, h1], by rw [h2, List.length_map], ?_, ?_⟩
  · intro i l x hx hl
    rw [h2, List.getElem?_map, hx, Option.map_some, Option.some.injEq] at hl
    rw [← hl, ← h1]
    exact nearest_isLabel metric hne x
  · intro c hc
    obtain ⟨new, hn1, hn2⟩ := newCenters_isCenter alpha (kmLoop metric tol alpha maxIter (alpha.map fun _ => 0)
      (init.map fun i => some (alpha.getD i 0))).1 prev (c := c) (by omega)
    rw [← h3] at hn1
    exact ⟨_, new, List.getElem?_eq_getElem (by omega), hn1, hn2⟩

/-- `inertia_` is the sum of the distances from the observations to the reported centres of their labels. -/
theorem C63_inertia {metric : String} {k maxIter : ℕ} {tol : ℝ} {init : List ℕ} {alpha : List ℝ}
    (hn : k ≤ alpha.length) {v : ℝ} (h : (kmFit metric k maxIter tol init alpha).inertia = some v) :
    ∃ ds : List ℝ, v = ds.sum ∧ List.Forall₂ (fun (p : ℝ × ℕ) d => ∃ c,
        (kmFit metric k maxIter tol init alpha).centers[p.2]? = some (some c) ∧ d = |hacDist metric p.1 c|)
      (List.zip alpha (kmFit metric k maxIter tol init alpha).labels) ds := by
  rw [kmFit, if_neg (by omega)] at h ⊢
  simp only [kmInertia, Option.map_eq_some_iff] at h ⊢
  obtain ⟨ds, hds, rfl⟩ := h
  refine ⟨ds, rfl, ?_⟩
  refine (optMapM_eq_some hds).imp ?_
  rintro ⟨x, l⟩ d hd
  simp only [kmDist, Option.map_eq_some_iff] at hd
  obtain ⟨c, hc, rfl⟩ := hd
  refine ⟨c, ?_, rfl⟩
  rw [List.getD_eq_getElem?_getD] at hc
  cases he : (kmLoop metric tol alpha maxIter (alpha.map fun _ => 0)
      (init.map fun i => some (alpha.getD i 0))).2[l]? with
  | none => rw [he] at hc; cases hc
  | some o => rw [he] at hc; simp only [Option.getD_some] at hc; simp only [hc]

/-- With fewer observations than clusters each observation is a cluster, and `predict` then fails. -/
theorem C63_few {metric : String} {k maxIter : ℕ} {tol : ℝ} {init : List ℕ} {alpha : List ℝ}
    (hn : alpha.length < k) (x : List ℝ) :
    (kmFit metric k maxIter tol init alpha).labels = List.range alpha.length ∧
      (kmFit metric k maxIter tol init alpha).centers = alpha.map some ∧
      kmPredict metric k (kmFit metric k maxIter tol init alpha).centers x = .error .indexError := by
  rw [kmFit, if_pos hn]
  refine ⟨rfl, rfl, ?_⟩
  rw [kmPredict, if_pos (by simpa using hn)]

/-- `predict` labels every angle by the nearest reported centre. -/
theorem C63_predict {metric : String} {k : ℕ} {centers : List (Option ℝ)} {xs : List ℝ} (hk : 0 < k)
    (hc : centers.length = k) : ∃ ls, kmPredict metric k centers xs = .ok ls ∧
      List.Forall₂ (fun x l => l < k ∧ IsLabel metric centers x l) xs ls := by
  refine ⟨_, if_neg (by omega), ?_⟩
  have hne : centers ≠ [] := by rintro rfl; simp at hc; omega
  rw [List.forall₂_map_right_iff, List.take_of_length_le (by omega), List.forall₂_same]
  intro x _
  have := nearest_isLabel metric hne x
  rwa [hc] at this


/-- The rule determines the label. -/
theorem C63_label_unique {metric : String} {centers : List (Option ℝ)} {x : ℝ} {l l' : ℕ}
    (h : IsLabel metric centers x l) (h' : IsLabel metric centers x l') : l = l' := by
  rcases h with ⟨h1, h2⟩ | ⟨c, h1, h2⟩ <;> rcases h' with ⟨h1', h2'⟩ | ⟨c', h1', h2'⟩
  · rcases lt_trichotomy l l' with h | h | h
    · exact absurd h1 (h2' l h)
    · exact h
    · exact absurd h1' (h2 l' h)
  · obtain ⟨b, hb, -⟩ := h2' l none h1
    cases hb
  · obtain ⟨b, hb, -⟩ := h2 l' none h1'
    cases hb
  · obtain ⟨b, hb, e1, e2⟩ := h2 l' _ h1'
    obtain ⟨b', hb', e1', e2'⟩ := h2' l _ h1
    cases hb
    cases hb'
    rcases lt_trichotomy l l' with h | h | h
    · have := e2' h
      linarith
    · exact h
    · have := e2 h
      linarith

/-- `predict` on the fitted data gives back `labels_` exactly when every label is that of the nearest reported
centre (as it is when the last update moved no centre). -/
theorem C63_predict_fitted {metric : String} {k : ℕ} {centers : List (Option ℝ)} {alpha : List ℝ} {labels : List ℕ}
    (hk : 0 < k) (hc : centers.length = k) : kmPredict metric k centers alpha = .ok labels ↔
      List.Forall₂ (IsLabel metric centers) alpha labels := by
  obtain ⟨ls, h1, h2⟩ := C63_predict (metric := metric) (xs := alpha) hk hc
  rw [h1]
  constructor
  · rintro h
    cases h
    exact h2.imp fun _ _ h => h.2
  · intro h
    congr 1
    clear h1
    induction h2 generalizing labels with
    | nil => cases h; rfl
    | cons hd _ ih =>
      cases h with
      | cons hd' tl' => rw [C63_label_unique hd.2 hd', ih tl']

/-- An undefined centre attracts every angle: all get the label of the first undefined centre. -/
theorem C63_nan {metric : String} {k : ℕ} {centers : List (Option ℝ)} {c : ℕ} (hk : 0 < k)
    (hc : centers.length = k) (h : centers[c]? = some none) (hfirst : ∀ j < c, centers[j]? ≠ some none) (xs : List ℝ) :
    kmPredict metric k centers xs = .ok (xs.map fun _ => c) := by
  rw [C63_predict_fitted hk hc, List.forall₂_map_right_iff, List.forall₂_same]
  exact fun x _ => Or.inl ⟨h, hfirst⟩

private lemma resultant_pair (a b : ℝ) :
    resultant [a, b] = ((2 * cos ((b - a) / 2) : ℝ) : ℂ) * Complex.exp ((((a + b) / 2 : ℝ) : ℂ) * Complex.I) := by
  rw [resultant]
  simp only [List.map_cons, List.map_nil, List.sum_cons, List.sum_nil, add_zero]
  have h1 : Complex.exp ((a : ℂ) * Complex.I) = Complex.exp ((((a + b) / 2 : ℝ) : ℂ) * Complex.I) *
      Complex.exp (-(((b - a) / 2 : ℝ) : ℂ) * Complex.I) := by
    rw [← Complex.exp_add]; congr 1; push_cast; ring
  have h2 : Complex.exp ((b : ℂ) * Complex.I) = Complex.exp ((((a + b) / 2 : ℝ) : ℂ) * Complex.I) *
      Complex.exp ((((b - a) / 2 : ℝ) : ℂ) * Complex.I) := by
    rw [← Complex.exp_add]; congr 1; push_cast; ring
  rw [h1, h2, ← mul_add]
  push_cast
  rw [Complex.two_cos]
  ring

lemma mean_pair {a b : ℝ} (h0 : 0 ≤ (a + b) / 2) (h1 : (a + b) / 2 < 2 * π)
    (hc : 1 / 10 ^ 12 < cos ((b - a) / 2)) :
    ((circMeanAndR [a, b] (ones [a, b])).bind fun mr => mr.1) = some ((a + b) / 2) := by
  have hm : moment [a, b] (ones [a, b]) 1 = ((cos ((b - a) / 2) : ℝ) : ℂ) *
      Complex.exp ((((a + b) / 2 : ℝ) : ℂ) * Complex.I) := by
    rw [moment, expSum_ones, sum_ones, resultant_pair]
    push_cast
    simp
    ring
  have hpos : 0 < cos ((b - a) / 2) := lt_trans (by norm_num) hc
  rw [circMeanAndR_eq, hm, sum_ones, if_neg (by simp), Option.bind_some, norm_mul, Complex.norm_exp_ofReal_mul_I,
    Complex.norm_real, mul_one, Real.norm_of_nonneg hpos.le, if_neg (not_le.2 hc)]
  simp only [Option.some.injEq]
  rw [angmod2pi_congr (arg_sameDir_of_polar hpos rfl), angmod2pi_eq_self h0 h1]

/-- The reported labels are not those that `predict` gives on the same data when the iteration limit stops the loop:
four angles, two clusters, one iteration. -/
theorem C63_predict_fails : (kmFit "center" 2 1 0 [0, 1] [0, 1, 0.4, 3]).labels = [0, 1, 0, 1] ∧
    (kmFit "center" 2 1 0 [0, 1] [0, 1, 0.4, 3]).centers = [some 0.2, some 2] ∧
    kmPredict "center" 2 (kmFit "center" 2 1 0 [0, 1] [0, 1, 0.4, 3]).centers [0, 1, 0.4, 3] = .ok [0, 0, 0, 1] := by
  have hpi := pi_gt_three
  have hd : ∀ x y : ℝ, |x - y| ≤ 3 → hacDist "center" x y = x - y := by
    intro x y h
    rw [abs_le] at h
    rw [hacDist, C25_center_unique x y (x - y) (by linarith) (by linarith) (CongMod.refl _ _)]
  have hn : ∀ x a b : ℝ, |x - a| ≤ 3 → |x - b| ≤ 3 →
      nearest "center" [some a, some b] x = if |x - a| ≤ |x - b| then 0 else 1 := by
    intro x a b h1 h2
    simp only [nearest, kmDist, List.map_cons, List.map_nil, Option.map_some, hd x a h1, hd x b h2, npArgmin]
    simp only [List.findIdx?_cons, List.findIdx?_nil, Option.isNone_some, argminL]
    by_cases h : |x - a| ≤ |x - b| <;> simp [h]
  have hl : List.map (nearest "center" [some 0, some 1]) [0, 1, 0.4, 3] = [0, 1, 0, 1] := by
    simp only [List.map_cons, List.map_nil]
    rw [hn, hn, hn, hn] <;> norm_num [abs_le, abs_of_nonneg, abs_of_nonpos]
  have hcos : ∀ t : ℝ, 0 ≤ t → t ≤ 1 → 1 / 10 ^ 12 < cos t := by
    intro t h0 h1
    have := one_sub_sq_div_two_le_cos (x := t)
    have : (1 : ℝ) / 10 ^ 12 < 1 / 2 := by norm_num
    nlinarith
  have hc : newCenters [0, 1, 0.4, 3] [0, 1, 0, 1] [some 0, some 1] = [some 0.2, some 2] := by
    have e1 := mean_pair (a := 0) (b := 0.4) (by norm_num) (by norm_num; linarith)
      (hcos _ (by norm_num) (by norm_num))
    have e2 := mean_pair (a := 1) (b := 3) (by norm_num) (by norm_num; linarith)
      (hcos _ (by norm_num) (by norm_num))
    simp only [newCenters, List.mapIdx_cons, List.mapIdx_nil, filterMap_withLabel]
    have w0 : withLabel [0, 1, 0.4, 3] [0, 1, 0, 1] 0 = [0, 0.4] := by simp [withLabel]
    have w1 : withLabel [0, 1, 0.4, 3] [0, 1, 0, 1] (0 + 1) = [1, 3] := by simp [withLabel]
    rw [w0, w1, e1, e2, if_neg (by simp), if_neg (by simp)]
    norm_num
  have hloop : kmLoop "center" 0 [0, 1, 0.4, 3] 1 ([(0 : ℝ), 1, 0.4, 3].map fun _ => 0)
      ([0, 1].map fun i => some ([(0 : ℝ), 1, 0.4, 3].getD i 0)) = ([0, 1, 0, 1], [some 0.2, some 2]) := by
    have hinit : ([0, 1].map fun i => some ([(0 : ℝ), 1, 0.4, 3].getD i 0)) = [some 0, some 1] := rfl
    rw [hinit, kmLoop, hl, hc, kmLoop]
    simp
  have hfit : kmFit "center" 2 1 0 [0, 1] [0, 1, 0.4, 3] = ⟨[0, 1, 0, 1], [some 0.2, some 2],
      kmInertia "center" [0, 1, 0.4, 3] [0, 1, 0, 1] [some 0.2, some 2]⟩ := by
    rw [kmFit, if_neg (by simp)]
    simp only [hloop]
  rw [hfit]
  refine ⟨rfl, rfl, ?_⟩
  rw [kmPredict, if_neg (by simp)]
  simp only [List.take_succ_cons, List.take_zero, List.map_cons, List.map_nil]
  rw [hn, hn, hn, hn] <;> norm_num [abs_le, abs_of_nonneg, abs_of_nonpos]

/-- Two opposite angles in one cluster leave it without a centre, and the inertia undefined. -/
theorem C63_undefined : (kmFit "center" 1 1 0 [0] [0, π]).centers = [none] ∧
    (kmFit "center" 1 1 0 [0] [0, π]).inertia = none := by
  have hl : ∀ x, nearest "center" [some 0] x = 0 := by
    intro x
    have := (nearest_isLabel "center" (centers := [some 0]) (by simp) x).1
    simpa using this
  have hc : newCenters [0, π] [0, 0] [some 0] = [none] := by
    simp only [newCenters, List.mapIdx_cons, List.mapIdx_nil, filterMap_withLabel]
    have w0 : withLabel [0, π] [0, 0] 0 = [0, π] := by simp [withLabel]
    have hm : moment [0, π] (ones [0, π]) 1 = 0 := by
      rw [moment, expSum_ones, resultant_pair]
      simp
    rw [w0, if_neg (by simp), circMeanAndR_eq, hm]
    simp
  have hloop : kmLoop "center" 0 [0, π] 1 ([(0 : ℝ), π].map fun _ => 0)
      ([0].map fun i => some ([(0 : ℝ), π].getD i 0)) = ([0, 0], [none]) := by
    have hinit : ([0].map fun i => some ([(0 : ℝ), π].getD i 0)) = [some 0] := rfl
    rw [hinit, kmLoop]
    simp only [List.map_cons, List.map_nil, hl, hc]
    rw [kmLoop]
    simp
  rw [kmFit, if_neg (by simp)]
  simp only [hloop, true_and]
  rfl

/-- The hypotheses of `C63_fit` and `C63_inertia` are met by the run above. -/
example : ∃ prev : List (Option ℝ), prev.length = 2 ∧
    (kmFit "center" 2 1 0 [0, 1] [0, 1, 0.4, 3]).labels.length = 4 :=
  let ⟨prev, h1, _, h2, _⟩ := C63_fit (metric := "center") (k := 2) (maxIter := 1) (tol := 0) (init := [0, 1])
    (alpha := [0, 1, 0.4, 3]) (by norm_num) (by simp) rfl (by norm_num)
  ⟨prev, h1, h2⟩

end Verif.Props
